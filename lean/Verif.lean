import Verif.Num.Props
import Verif.Bits.Props
import Verif.Hash.Props
import Verif.Seq.Props
import Verif.Cons.Props
import Verif.Lst.Props
import Verif.Arr.Props
import Verif.Cls.Props
import Verif.Cpy.Props
import Verif.Pkg.Props
import Verif.Rd.Props
import Verif.Mem.Props
import Verif.Rat.Props
import Verif.Eql.Props
import Verif.Str.Props
import Verif.Ctl.Props
import Verif.Lam.Props
import Verif.Io.Props
import Verif.Par.Props
import Verif.Lex.Props
import Verif.Cmp.Props
import Verif.Bq.Props
import Verif.Lib.Props
import Verif.Mat.Props
import Verif.Crd.Props
import Verif.Srch.Props
import Verif.Qua.Props
import Verif.Mac.Props
import Verif.Fmt.Props
import Verif.Syn.Props
import Verif.Geo.Props
import Verif.Inf.Props
import Verif.Circ.Props
import Verif.Flt.Props
import Verif.Mix.Props
import Verif.Fgn.Props
import Verif.Ppr.Props
import Verif.Arg.Props
import Verif.Cex.Props
import Verif.Cnd.Props
import Verif.Ldr.Props
import Verif.Opn.Props
import Verif.Osz.Props
import Verif.Dda.Props
import Verif.Hst.Props
import Verif.Hul.Props
import Verif.Brp.Props
import Verif.Trc.Props
import Verif.Rgc.Props
import Verif.Top.Props
import Verif.Utt.Props
import Verif.Pnm.Props
import Verif.Prc.Props
import Verif.Spv.Props
import Verif.Rpy.Props
import Verif.Sgn.Props
import Verif.Ary.Props
import Verif.Bdv.Props
import Verif.Slt.Props
import Verif.Kna.Props
import Verif.Dtr.Props
import Verif.Sgp.Props
import Verif.Pix.Props
import Verif.Psl.Props
import Verif.Brd.Props
import Verif.Rnd.Props
import Verif.Bec.Props
import Verif.Kol.Props
import Verif.Asy.Props
import Verif.Plg.Props
import Verif.Htm.Props
import Verif.Txw.Props
import Verif.Pnl.Props
import Verif.Rms.Props
import Verif.Rms.History
import Verif.Sie.Props
import Verif.Psr.Props
import Verif.Itm.Props
import Verif.Seg.Props
import Verif.Hid.Props
import Verif.Gtm.Props
import Verif.Itv.Props
