import Verif.Basic
import Verif.Bits
import Verif.Array.Props
import Verif.Queue.Props
import Verif.Queue.Index
import Verif.Heap.Props
import Verif.Heap.Max
import Verif.Map.Props
import Verif.Map.Keys
import Verif.List.Props
import Verif.Timer.Props
import Verif.CMem
import Verif.Buf.Props
import Verif.CLib
import Verif.Str.Props
import Verif.Str.Null
import Verif.Str.History
import Verif.Crc.Props
import Verif.Crc.Hd
import Verif.CNum
import Verif.Sc.Props
import Verif.Sc.Period
import Verif.Option.Props
import Verif.Uri.Props
import Verif.Uri.Reparse
import Verif.Uri.Inverts
import Verif.Ini.Props
import Verif.Signal.Props
import Verif.Log.Sinks
import Verif.Cond.Props
import Verif.Cond.Win
import Verif.Cond.Cases
import Verif.Cond.Portable
import Verif.Mutex.Props
import Verif.Mutex.Win
import Verif.Thread.Props
import Verif.Thread.Portable
import Verif.Time.Props
import Verif.Time.Win
import Verif.Mmap.Range
import Verif.Perf.Props
import Verif.Sock.Props
import Verif.Sock.IoProps
import Verif.Sock.Name
import Verif.Poll.EpollWait
import Verif.Poll.KqueueProps
import Verif.Poll.Reuse
import Verif.Poll.ReuseProps
import Verif.Poll.WinDefects
import Verif.Poll.WinOps
import Verif.Poll.WinReuse
import Verif.Poll.WinCall
import Verif.Poll.WinGrow
import Verif.Sock.WinPipe
import Verif.Sock.Again
import Verif.Sock.WinTransfer
import Verif.Sock.WinOpen
import Verif.Sock.WinIo
import Verif.Sock.Text
import Verif.Poll.WinLife
import Verif.Log.Life
import Verif.Mmap.Crash
import Verif.Mmap.Win
import Verif.Mmap.Lock
import Verif.Signal.Win
import Verif.Signal.WinProps
import Verif.Buf.Stream
import Verif.Memory.Store
import Verif.Memory.Array
import Verif.Memory.Queue
import Verif.Memory.Heap
import Verif.Memory.Timer
import Verif.Memory.Map
import Verif.Memory.Buf
import Verif.Memory.BufSelf
import Verif.Memory.Str
import Verif.Memory.Uri
import Verif.Memory.Safe
import Verif.Memory.Props
import Verif.Memory.Alias
import Verif.Memory.Term
import Verif.Memory.Sum
import Verif.Memory.Move
import Verif.Cost.Array
import Verif.Cost.Queue
import Verif.Cost.Heap
import Verif.Cost.Levels
import Verif.Cost.Map
import Verif.Cost.Probe
import Verif.Map.Reference
import Verif.Cost.Flood
import Verif.Cost.Dense
import Verif.Cost.Timer
import Verif.Cost.TimerGrow
import Verif.Cost.Buf
import Verif.Log.Callback
import Verif.Log.Cases
import Verif.Log.Defaults
import Verif.Log.Switch
import Verif.Log.Crash
import Verif.Cost.Reserved
import Verif.Buf.Codes
import Verif.Buf.Cut
import Verif.Buf.Drain
import Verif.Timer.Late
import Verif.Timer.Loop
import Verif.Timer.Order
import Verif.Timer.Nested
import Verif.Loop.Array
import Verif.Loop.Queue
import Verif.Loop.Map
import Verif.Loop.List
import Verif.Macro.Array
import Verif.Macro.Queue
import Verif.Race.Spec
import Verif.Race.Lemmas
import Verif.Race.Cond
import Verif.Race.Log
import Verif.Race.Thread
import Verif.Race.Poll
import Verif.Narrow.Sizes
import Verif.Narrow.Time
import Verif.Flt.Double
import Verif.Flt.Uses
import Verif.Ini.Layout
import Verif.Sock.WinUnix
import Verif.Cond.Handover
import Verif.Config.Max
import Verif.Frame.Model
import Verif.Frame.Props
import Verif.Sock.Eof
import Verif.Cache.Model
import Verif.Cache.Props
import Verif.Shutdown.Model
import Verif.Shutdown.Props
import Verif.Shutdown.Cases
import Verif.Shutdown.Kqueue
import Verif.Shutdown.KqueueCases
import Verif.Shutdown.Win
import Verif.Shutdown.WinCases
import Verif.Poll.WinText
import Verif.Poll.WinTextCases
import Verif.Frame.Win
import Verif.Frame.WinCases
import Verif.Sock.PipeText
