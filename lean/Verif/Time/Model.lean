import Verif.Flt.Model

/-!
# Model: times (`value/sys.go:180-304`, `config/config.go:415-478`)

`'T' encode s` turns seconds since 1970 into a vector of year, month, day, hour, minute, second and offset from UTC; `'T' decode` goes back.

Go's `time` package is part of the trusted base; it is modelled as the Gregorian calendar, extended in both directions, with days of 86400 seconds. A `time.Time` is
a number of seconds since 1970 (UTC) and of nanoseconds in 0 … 999999999. Numbers of years, days and seconds are not bounded in the model.
-/

namespace Verif.Time
open Verif.Flt
open Verif.Arr (R)

/-! ## Package `time` -/

/-- `time.isLeap`. -/
def isLeap (y : Int) : Bool := y % 4 = 0 && (y % 100 ≠ 0 || y % 400 = 0)

/-- The days before the first of month `m` (1 … 12), `time.daysBefore`. -/
def daysBefore (leap : Bool) (m : Nat) : Nat :=
  [0, 31, 59, 90, 120, 151, 181, 212, 243, 273, 304, 334, 365].getD (m - 1) 0 + (if leap && decide (3 ≤ m) then 1 else 0)

/-- The days from 1 January 1970 to 1 January of the year `y`. -/
def yearStart (y : Int) : Int := 365 * (y - 1) + (y - 1) / 4 - (y - 1) / 100 + (y - 1) / 400 - 719162

/-- `time.Date`: the seconds since 1970 that clocks at offset 0 show at the given date and time. Months beyond 1 … 12 are carried to the year; days, hours, minutes and seconds
beyond their range count on. -/
def civilSeconds (year month day hour min sec : Int) : Int :=
  let y := year + (month - 1) / 12
  let m := (month - 1) % 12 + 1
  (yearStart y + daysBefore (isLeap y) m.toNat + (day - 1)) * 86400 + hour * 3600 + min * 60 + sec

/-- The month and the day in it, of a day of the year (from 0). -/
def monthDay (leap : Bool) (yday : Nat) : Nat × Nat :=
  let m := ((List.range 12).filter fun m => daysBefore leap (m + 1) ≤ yday).length
  (m, yday - daysBefore leap m + 1)

/-- `(time.Time).Date`: year, month and day of a number of days since 1970. -/
def civilDate (n : Int) : Int × Nat × Nat :=
  let d := n + 719162
  let r := d % 146097
  let c := min (r / 36524) 3
  let r := r - 36524 * c
  let q := r / 1461
  let r := r % 1461
  let a := min (r / 365) 3
  let y := 400 * (d / 146097) + 100 * c + 4 * q + a + 1
  (y, monthDay (isLeap y) (r - 365 * a).toNat)

/-- A `time.Location`: the offset from UTC in seconds at each instant. -/
abbrev Zone := Int → Int

/-- `time.FixedZone`. -/
def fixedZone (offset : Int) : Zone := fun _ => offset

/-- `time.Date` in a location: the offset is looked up as if the time were UTC, then again with the result, if that is not in the same period. -/
def dateIn (z : Zone) (t : Int) : Int := t - z (t - z t)

/-- `time.Unix`: nanoseconds beyond a second are carried. -/
def unixTime (sec nsec : Int) : Int × Int := (sec + nsec / 1000000000, nsec % 1000000000)

/-! ## Package `config` -/

/-- What the functions use of the configuration and of the machine: the offset of the machine's own zone now (`time.Now().Zone()`); the
location (`Location`, `config/config.go:415-418`); and the zone of `LocationAt` (`config/config.go:433-443`), a fixed zone with the offset in effect at the given time. -/
structure Conf where
  nowOffset : Int
  location : Zone
  zone : Zone

/-- `config/config.go:420-431`: `SetLocation` at the time `now`. `loadLocation` (`config/config.go:452-478`) makes a fixed zone of the offset at that time; `LocationAt` goes by the name. -/
def setLocation (c : Conf) (now : Int) (z : Zone) : Conf := { c with location := fixedZone (z now), zone := z }

/-! ## `value/sys.go` -/

/-- `(*big.Float).Int` and `Int64`: rounding towards zero. -/
def trunc (q : Rat) : Int := if q < 0 then -(-q).floor else q.floor

/-- `value/sys.go:284-293`: `secNsec`. The argument is changed: its new value is the third component. `big.NewFloat(0)` has 53 bits, and `SetInt` rounds to them. -/
def secNsec (x : Fl) : Int × Int × Fl :=
  let s := trunc x.val
  let f := sub x.prec x.val (rnd 53 s)
  let f := mul x.prec f 1000000000
  let f := add x.prec f (mkRat 1 2)
  (s, trunc f, ⟨x.prec, f⟩)

/-- An element of a time vector. `Int`s and `BigInt`s of 64 bits are the same; larger ones and all other values are `other`. -/
inductive Elem where
  | int (n : Int)
  | rat (q : Rat)
  | flt (f : Fl)
  | other
deriving DecidableEq, Repr

/-- `value/sys.go:295-304`: `timeFromValue`, of a number as a float (`toType` makes floats with the precision of the configuration of other numbers). The float is copied first. -/
def timeFromValue (x : Fl) : Int × Int :=
  let r := secNsec x
  unixTime r.1 r.2.1

/-- `value/sys.go:191-203`: `timeVec` of a time in a zone. The seconds are computed in `float64`. -/
def timeVec (t nsec offset : Int) : List Elem :=
  let local_ := t + offset
  let d := civilDate (local_ / 86400)
  let s := local_ % 86400
  let sec := rnd 53 (((s % 60 : Int) : Rat) + rnd 53 ((nsec : Rat) / 1000000000))
  [.int d.1, .int d.2.1, .int d.2.2, .int (s / 3600), .int (s % 3600 / 60), .flt ⟨53, sec⟩, .int offset]

/-- `value/sys.go:180-189`: `encodeTime`, with `T` on the left. -/
def encodeTime (c : Conf) (x : Fl) : List Elem :=
  let t := timeFromValue x
  timeVec t.1 t.2 (c.zone t.1)

/-- `value/sys.go:215-225`: `toInt`. -/
def toInt : Elem → R Int
  | .int n => .ok n
  | _ => .err "illegal right operand in decode"

/-- `value/sys.go:239-255`: the seconds: whole seconds, nanoseconds, and the element afterwards. A rational number is copied to a new float, whose precision is that of `SetRat`. -/
def seconds : Elem → R (Int × Int × Elem)
  | .int n => .ok (n, 0, .int n)
  | .rat q =>
    let p := max 64 (max (bitLen q.num.natAbs) (bitLen q.den))
    let r := secNsec ⟨p, rnd p q⟩
    .ok (r.1, r.2.1, .rat q)
  | .flt f => let r := secNsec f; .ok (r.1, r.2.1, .flt r.2.2)
  | .other => .err "illegal right operand in decode"

/-- `value/sys.go:276-281`: the number of seconds, of 64 bits. -/
def total (t nsec : Int) : R Rat := quo 64 (add 64 (mul 64 ((1000 * t : Int) : Rat) 1000000) nsec) 1000000000

/-- `value/sys.go:205-282`: `decodeTime`, with `T` on the left and `v` not empty. Result: the seconds, and the elements of `v` afterwards: the sixth is changed if it is a float. -/
def decodeTime (c : Conf) (v : List Elem) : R (Rat × List Elem) :=
  if 7 < v.length then .err "invalid time vector" else
    let get (i : Nat) (default : Int) : R Int := match v[i]? with
      | some e => toInt e
      | none => .ok default
    (match v[6]? with
      | some e => (toInt e).bind fun o => .ok (if o ≠ c.nowOffset then fixedZone o else c.location)
      | none => .ok c.location).bind fun loc =>
    (match v[5]? with
      | some e => (seconds e).bind fun r => .ok (r.1, r.2.1, v.set 5 r.2.2)
      | none => .ok (0, 0, v)).bind fun r =>
    (get 4 0).bind fun min => (get 3 0).bind fun hour => (get 2 1).bind fun day => (get 1 1).bind fun month => (get 0 0).bind fun year =>
    (total (dateIn loc (civilSeconds year month day hour min r.1)) r.2.1).bind fun s => .ok (s, r.2.2)

end Verif.Time
