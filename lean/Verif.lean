import Verif.Core.Run
import Verif.Core.Last
import Verif.Core.Threads
import Verif.TimedMutex.Props
import Verif.RecursiveMutex.Props
import Verif.SharedMutex.Props
import Verif.WinMutex.Props
import Verif.WinRecursiveMutex.Props
import Verif.SyncQueue.Props
import Verif.BoundedQueue.Props
import Verif.TimedQueue.Props
import Verif.Once.Props
import Verif.OnceEpoch.Props
import Verif.Barrier.Props
import Verif.Latch.Props
import Verif.CompletionLatch.Props
import Verif.LockAlg.Props
import Verif.LockObj.Props
import Verif.CondVar.Props
import Verif.TimedWait.Props
import Verif.Future.Props
import Verif.PlatformTime.Props
import Verif.CpuInfo.Props
import Verif.StackSize.Props
import Verif.Thread.Props
import Verif.ScopedThread.Props
import Verif.ScopedThread.Last
import Verif.ThreadGroup.Props
import Verif.ThreadExit.Props
import Verif.SyncValue.Props
import Verif.ThreadPool.Props
import Verif.ThreadPool.Last
import Verif.SerialExecutor.Props
import Verif.SerialExecutor.Last
import Verif.LoopExecutor.Props
import Verif.LoopExecutor.Last
import Verif.PackagedTask.Props
import Verif.Continuation.Props
import Verif.WaitAny.Props
import Verif.WhenAll.NonBlocking
import Verif.V2Mutex.Props
import Verif.WinSharedMutex.Props
import Verif.Scheduler.Props
import Verif.WinOnce.Props
import Verif.WinCondVar.Props
import Verif.Sleep.Props
import Verif.Unwrap.Props
import Verif.Async.Races
import Verif.SerialCont.Props
import Verif.SerialCont.Last
import Verif.AtExit.Props
import Verif.WinThread.Props
import Verif.TaskRegion.Props
import Verif.ThreadExec.Props
import Verif.InlineExec.Props
import Verif.DevQueue.Props
import Verif.Guards.Props
import Verif.WaitCallback.Props
import Verif.Testable.Props
import Verif.TickCount.Props
import Verif.SharedFair.Props
import Verif.V2Fair.Props
import Verif.FutureHandle.Props
import Verif.TimedLock.Props
import Verif.TimedLock.ManyProps
import Verif.Lifetime.Props
import Verif.StateLife.Props
import Verif.CondLife.Props
import Verif.WinMutexLife.Props
import Verif.Deferred.Props
import Verif.WinSharedFair.Props
import Verif.TimedJoin.Props
import Verif.Xtime.Props
import Verif.Stream.Props
import Verif.MutexLife.Props
import Verif.Work.Props
import Verif.ThreadId.Props
import Verif.ForeignExit.Props
import Verif.Helping.Props
import Verif.Audit
