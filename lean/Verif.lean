import Verif.Props.Hash
import Verif.Props.Xht
import Verif.Props.SdTxt
import Verif.Props.Packets
import Verif.Props.ParserSafety
import Verif.Props.Wire
import Verif.Props.Builder
import Verif.Props.Names
import Verif.Props.RoundTrip
import Verif.Props.Isolation
import Verif.Lemmas.Safety
import Verif.Props.Memory
import Verif.Props.Cache
import Verif.Props.Queries
import Verif.Props.Questions
import Verif.Props.Records
import Verif.Props.Receiving
import Verif.Model.Daemon
import Verif.Audit
import Verif.Props.Addresses
import Verif.Props.Sweep
import Verif.Props.Service
import Verif.Props.Free
import Verif.Props.MainLoop
import Verif.Props.Finding
import Verif.Props.Step
import Verif.Props.Prompt
import Verif.Props.Sleep
import Verif.Props.Refresh
import Verif.Props.Lookups
import Verif.Props.Discovery
import Verif.Props.Conf
import Verif.Props.Iface
import Verif.Props.Process
import Verif.Props.Leaving
import Verif.Props.Log
import Verif.Props.Netlink
import Verif.Props.Mquery
import Verif.Props.MqueryTxt
import Verif.Props.MqueryOut
import Verif.Props.MqueryMain
import Verif.Props.Bounded
import Verif.Model.Reload
import Verif.Props.Reload
import Verif.Props.Loading
import Verif.Props.Network
import Verif.Lemmas.Losing
import Verif.Props.Departure
import Verif.Lemmas.Grammar
import Verif.Lemmas.Origin
import Verif.Model.MqueryRun
import Verif.Lemmas.MqueryRun
import Verif.Props.MqueryRun
import Verif.Props.MqueryBrowse
import Verif.Props.Renewal
import Verif.Props.Staying
import Verif.Props.Signals
import Verif.Props.Abiding
import Verif.Props.Telling
import Verif.Props.Origin
import Verif.Props.TxtDecode
import Verif.Props.Sockets
import Verif.Props.Pidfile
import Verif.Props.Hex
import Verif.Props.Lasting
import Verif.Props.Rivals
import Verif.Props.Options
import Verif.Props.Wide
import Verif.Props.Flush
import Verif.Props.Route
import Verif.Model.Alloc
import Verif.Props.Alloc
import Verif.Props.Missed
import Verif.Props.AllocLimits
import Verif.Props.QOptions
import Verif.Props.Glob
import Verif.Props.Pacing
import Verif.Props.Received
import Verif.Props.Spelling
import Verif.Lemmas.Spinning
import Verif.Props.Spinning
import Verif.Props.Renaming
import Verif.Model.Tailq
import Verif.Lemmas.Tailq
import Verif.Props.Tailq
import Verif.Props.Blocking
import Verif.Model.Ending
import Verif.Props.Ended
import Verif.Props.Ending
import Verif.Model.Reacting
import Verif.Lemmas.Reacting
import Verif.Props.Reacting
import Verif.Model.Buffers
import Verif.Props.Buffers
import Verif.Model.Calling
import Verif.Lemmas.Calling
import Verif.Lemmas.CallingAll
import Verif.Lemmas.CallingSim
import Verif.Props.Calling
import Verif.Model.ConfAlloc
import Verif.Props.ConfAlloc
import Verif.Model.XhtAlloc
import Verif.Props.XhtAlloc
import Verif.Model.Blocks
import Verif.Props.Blocks
import Verif.Model.UniAlloc
import Verif.Props.UniAlloc
import Verif.Model.MqueryAlloc
import Verif.Props.MqueryAlloc
import Verif.Model.TxtAlloc
import Verif.Props.TxtAlloc
import Verif.Model.LoadAlloc
import Verif.Props.LoadAlloc
import Verif.Model.AddrAlloc
import Verif.Props.AddrAlloc
import Verif.Model.IfaceAlloc
import Verif.Props.IfaceAlloc
import Verif.Model.LogSys
import Verif.Props.LogSys
import Verif.Model.XhtHeap
import Verif.Props.XhtHeap
import Verif.Model.Waiting
import Verif.Props.Waiting
import Verif.Model.LogStart
import Verif.Props.LogStart
import Verif.Model.Inet
import Verif.Props.Inet
import Verif.Model.LogTime
import Verif.Props.LogTime
