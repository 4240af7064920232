import Verif.Persist.Props
import Verif.Persist.ConcProps
import Verif.Par.Props
import Verif.Num.Props
import Verif.Heap.Props
import Verif.Order.Props
import Verif.Arr.Props
import Verif.Arr.IndexProps
import Verif.Arr.EvalProps
import Verif.Arr.RadixProps
import Verif.Arr.SelProps
import Verif.Exec.Props
import Verif.Syn.Props
import Verif.Sess.Props
import Verif.Shape.Props
import Verif.Arr.EachProps
import Verif.Arr.InvProps
import Verif.Num.CProps
import Verif.Arr.InvCProps
import Verif.Fmt.Props
import Verif.Arr.CatProps
import Verif.Arr.WhereProps
import Verif.Arr.MixProps
import Verif.Rand.Props
import Verif.Scan.Props
import Verif.Save.Props
import Verif.Lit.Props
import Verif.Safe.Props
import Verif.Print.Props
import Verif.Flt.Props
import Verif.Flt.AccProps
import Verif.Flt.AccProps2
import Verif.LogB.Props
import Verif.Time.Props
import Verif.Cell.Props
import Verif.Cell.Props2
import Verif.Cell.Props3
import Verif.Cell.PowerProps
import Verif.Shown.Props
import Verif.Shown.TextProps
import Verif.Shown.SaveProps
import Verif.Ctx.Props
import Verif.Shown.HugeProps
import Verif.Shown.HugeProps2
import Verif.Sess.SaveConf
import Verif.Sess.Reset
import Verif.Cell.InverseProps
import Verif.Cell.ArcProps
import Verif.Safe.CharProps
import Verif.Safe.FlattenProps
import Verif.Arr.MdivProps
import Verif.Iota.Props
import Verif.Sess.HtmlProps
import Verif.Sess.SysProps
import Verif.Sess.DemoProps
import Verif.Time.ZoneProps
import Verif.Exec.AssignProps
import Verif.Blanks.Props
import Verif.Sess.OutProps
import Verif.Sess.IvyOpProps
import Verif.Exec.QuietProps
