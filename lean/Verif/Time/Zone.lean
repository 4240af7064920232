/-!
# Names of time zones

`loadLocation`, `SetLocation`, `LocationAt` (`config/config.go:419-507`). The files of the system are parameters: what `time.LoadLocation` finds for a name, and
which files `filepath.Glob` finds. Simplified: `strings.ToUpper` for ASCII letters.
-/

namespace Verif.Time.Zone

abbrev Str := List Char

/-- The time zones of a system: `time.LoadLocation` (`config/config.go:461`), `filepath.Glob` without the directory (`:468`), and the offset that a location has at a time (`:478`). -/
structure System (Loc : Type) where
  load : Str → Option Loc
  glob : Str → List Str
  offset : Loc → Int → Int

/-- `config/config.go:482-507`: `timeZone`. -/
def table : List (String × String) :=
  [("GMT", "UTC"), ("UTC", ""), ("BST", "Europe/London"), ("BSDT", "Europe/London"), ("CET", "Europe/Paris"), ("PST", "America/Los_Angeles"),
   ("PDT", "America/Los_Angeles"), ("LA", "America/Los_Angeles"), ("LAX", "America/Los_Angeles"), ("MST", "America/Denver"), ("MDT", "America/Denver"),
   ("CST", "America/Chicago"), ("CDT", "America/Chicago"), ("Chicago", "America/Chicago"), ("EST", "America/New_York"), ("EDT", "America/New_York"),
   ("NYC", "America/New_York"), ("NY", "America/New_York"), ("AEST", "Australia/Sydney"), ("AEDT", "Australia/Sydney"), ("AWST", "Australia/Perth"),
   ("AWDT", "Australia/Perth"), ("ACST", "Australia/Adelaide"), ("ACDT", "Australia/Adelaide")]

/-- An entry of the table (`config/config.go:456` and `:458`). -/
def lookup (zone : Str) : Option Str := (table.find? fun p => p.1.toList == zone).map fun p => p.2.toList

/-- `strings.ToUpper` (`config/config.go:458`). -/
def upper (zone : Str) : Str := zone.map Char.toUpper

/-- `config/config.go:455-460`: the name for the file system. -/
def stdZone (zone : Str) : Str :=
  match lookup zone with
  | some tz => tz
  | none =>
    match lookup (upper zone) with
    | some tz => tz
    | none => zone

/-- `config/config.go:463-466`: the name with a capital letter. -/
def capital (zone : Str) : Str :=
  match zone with
  | [] => []
  | c :: l => if 'a' ≤ c ∧ c ≤ 'z' then c.toUpper :: l else c :: l

/-- `config/config.go:454-477`: the name and the location that `loadLocation` finds. -/
def find {Loc : Type} (sys : System Loc) (zone : Str) : Option (Str × Loc) :=
  match sys.load (stdZone zone) with
  | some loc => some (zone, loc)
  | none =>
    match sys.glob (stdZone zone) with
    | [] => none
    | f :: _ => (sys.load f).map fun loc => (if stdZone zone = [] then zone else capital zone, loc)

/-- `config/config.go:454-480`: `loadLocation`: the name and the offset at the time. -/
def loadLocation {Loc : Type} (sys : System Loc) (t : Int) (zone : Str) : Option (Str × Int) :=
  (find sys zone).map fun p => (p.1, sys.offset p.2 t)

/-- The two settings (`config/config.go:411-418`). -/
structure Conf where
  timeZone : Str
  location : Str × Int
deriving DecidableEq

/-- `config/config.go:420-431`: `SetLocation`; `none` is an error, and nothing is set then. -/
def setLocation {Loc : Type} (sys : System Loc) (now : Int) (zone : Str) (_ : Conf) : Option Conf :=
  (loadLocation sys now zone).map fun p => { timeZone := p.1, location := p }

/-- `config/config.go:436-443`: `LocationAt`; in case of an error, which is printed, the location of the time itself. -/
def locationAt {Loc : Type} (sys : System Loc) (t : Int) (own : Str × Int) (c : Conf) : Str × Int := (loadLocation sys t c.timeZone).getD own

end Verif.Time.Zone
