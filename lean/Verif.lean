import Verif.Bitmap.Props
import Verif.SizeClass.Props
import Verif.PageAlloc.Props
import Verif.Vec.Props
import Verif.Map.Props
import Verif.Str.Props
import Verif.Strings.Props
import Verif.Chan.LockProps
import Verif.Chan.Props
import Verif.Mutex.Props
import Verif.Sort.Props
import Verif.Url.Props
import Verif.IntCodec.Props
import Verif.Uleb.Props
import Verif.IoBuf.Props
import Verif.Path.Props
import Verif.ParMove.Props
import Verif.Resolve.Props
import Verif.Ranges.Props
import Verif.ArenaBits.Props
import Verif.FixAlloc.Props
import Verif.Span.Props
import Verif.Mark.Props
import Verif.GcBits.Props
import Verif.ConcGc.Props
import Verif.Queue.Props
import Verif.Linkco.Props
import Verif.BufIo.Props
import Verif.Fmt.Props
import Verif.Json.Props
import Verif.Json.TypedProps
import Verif.TypeLayout.Props
import Verif.Ssa.Props
import Verif.Cfg.Props
import Verif.Scan.Props
import Verif.Parse.Props
import Verif.Literal.Props
import Verif.Amd64.Props
import Verif.Branch.Props
import Verif.Linear.Props
import Verif.Abi.Props
import Verif.Abi.PropsArm
import Verif.Abi.PropsRv
import Verif.Table.Props
import Verif.Consts.Props
import Verif.Sched.Props
import Verif.Arith.Props
import Verif.Riscv.Props
import Verif.Alloc.Props
import Verif.Alloc.SimProps
import Verif.Arm64.Props
import Verif.Types.Props
import Verif.Types.TagProps
import Verif.Arena.Props
import Verif.Merge.Props
import Verif.Relax.Props
import Verif.Reloc.RvProps
import Verif.Reloc.ArmProps
import Verif.Reloc.X86Props
import Verif.Reloc.X86RelaxProps
import Verif.Reloc.ThunkProps
import Verif.Peephole.Props
import Verif.Sha.Props
import Verif.Global.Props
import Verif.Inflate.Props
import Verif.Capture.Props
import Verif.Blowfish.Props
import Verif.Bcrypt.Props
import Verif.Archive.Props
import Verif.Link.Props
import Verif.Symtab.Props
import Verif.EhHdr.Props
import Verif.Layout.Props
import Verif.GnuProp.Props
import Verif.Cie.Props
import Verif.Dynamic.Props
import Verif.Ifunc.Props
