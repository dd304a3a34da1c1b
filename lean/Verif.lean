import Verif.Imports.Props
import Verif.NumExpr.Props
import Verif.Lift.Props
import Verif.Location.Props
import Verif.Scope.Props
import Verif.Acyclic.Props
import Verif.Groups.Props
import Verif.Compose.Props
import Verif.Hierarchy.Props
import Verif.AttrRef.Props
import Verif.Consolidate.Props
import Verif.Freeze.Props
import Verif.TypeCheck.Props
import Verif.Frozen.Props
import Verif.Traversal.Props
import Verif.Hash.Props
import Verif.Fdt.Props
import Verif.FdtQuery.Props
import Verif.QueryKeys.Props
import Verif.Macros.Props
import Verif.Badges.Props
import Verif.VirtqueueIds.Props
import Verif.Labels.Props
import Verif.Interrupts.Props
import Verif.Context.Props
import Verif.Makefile.Props
import Verif.Runner.Props
import Verif.Dma.Props
import Verif.Notification.Props
import Verif.Marshal.Props
import Verif.CapAlloc.Props
import Verif.IoMap.Props
import Verif.IfaceReg.Props
import Verif.Irq.Props
import Verif.ReplyCap.Props
import Verif.VqAlloc.Props
import Verif.VqMsg.Props
import Verif.ClientLock.Props
import Verif.VqChan.Props
import Verif.Startup.Props
import Verif.DPtr.Props
import Verif.FaultMap.Props
import Verif.Drivers.Props
import Verif.Vma.Props
import Verif.Select.Props
import Verif.Sockets.Props
import Verif.Flush.Props
import Verif.IoPort.Props
import Verif.Errors.Props
import Verif.Mutexes.Props
import Verif.MsgQ.Props
import Verif.GdbPacket.Props
import Verif.GdbMem.Props
import Verif.GdbRegs.Props
import Verif.GdbRun.Props
import Verif.AttrText.Props
import Verif.HwIrq.Props
import Verif.IrqConfig.Props
import Verif.IrqEvents.Props
import Verif.Decls.Props
import Verif.Threads.Props
import Verif.Shmem.Props
import Verif.DevMem.Props
import Verif.Simple.Props
import Verif.DmaMap.Props
import Verif.DmaStats.Props
import Verif.Pools.Props
import Verif.BootFrames.Props
import Verif.CakeRpc.Props
import Verif.CakeFfi.Props
import Verif.Posix.Props
import Verif.Resolve.Props
import Verif.Queries.Props
import Verif.Forward.Props
import Verif.Pipeline.Props
import Verif.ArchSpec.Props
import Verif.CNames.Props
import Verif.Timing.Props
import Verif.Lint.Props
import Verif.Dispatch.Props
import Verif.ErrMsg.Props
import Verif.Colocate.Props
import Verif.GenFiles.Props
import Verif.Deps.Props
import Verif.Integrity.Props
import Verif.Glue.Props
import Verif.BuildApi.Props
import Verif.Tpp.Props
import Verif.DmaCheck.Props
import Verif.IfaceProps.Props
import Verif.FaultShow.Props
import Verif.GdbPort.Props
import Verif.DtbIrq.Props
import Verif.UntypedAddr.Props
import Verif.CNodeSize.Props
import Verif.RpcSig.Props
import Verif.ConnCaps.Props
import Verif.FaultCaps.Props
import Verif.DepCheck.Props
import Verif.QueueEnds.Props
import Verif.DmaPtr.Props
import Verif.Goanna.Props
import Verif.IoOps.Props
import Verif.Paths.Props
import Verif.Process.Props
import Verif.CakeReply.Props
import Verif.Diag.Props
import Verif.RtReply.Props
import Verif.SimpleEnv.Props
import Verif.StdConn.Props
import Verif.InstSet.Props
import Verif.VerNames.Props
import Verif.AnonStruct.Props
import Verif.KeyTable.Props
import Verif.ArgLint.Props
import Verif.SenderId.Props
