import Verif.Props.Codec
import Verif.Dispatch
import Verif.Props.Store
import Verif.Props.Offsets
import Verif.Props.ListOffsets
import Verif.Props.FetchLive
import Verif.Props.Conn
import Verif.Props.Api
import Verif.Props.Request
import Verif.Props.Crc
import Verif.Props.Group
import Verif.LifeInv
import Verif.Props.Lifecycle
import Verif.Props.Registry
import Verif.Refine
import Verif.Halts
import Verif.Props.WindDown
import Verif.System
import Verif.Props.System
import Verif.Go.Error
import Verif.Props.Errors
import Verif.Heap
import Verif.Props.Heap
import Verif.RepoTests
import Verif.Safe
import Verif.Callers
import Verif.Props.Safe
import Verif.Props.Posts
import Verif.Serve
import Verif.Props.Wire
import Verif.Props.Visible
import Verif.Props.Reading
import Verif.Locks
import Verif.LockLive
import Verif.Race
import Verif.Props.Locks
import Verif.Props.Drop
import Verif.Props.Poll
import Verif.Fair
import Verif.FairEnds
import Verif.LifeNext
import Verif.Apart
import Verif.Live
import Verif.Props.Live
import Verif.Room
import Verif.Answers
import Verif.Props.Answered
import Verif.Props.Consumer
import Verif.Props.LifeRace
import Verif.Props.Moment
import Verif.Props.Finish
import Verif.Props.Crash
import Verif.Props.Fall
import Verif.Props.Alloc
import Verif.Props.Missing
import Verif.Props.Closing
import Verif.Props.Cluster
import Verif.Props.Headers
import Verif.Latency
import Verif.Props.Latency
import Verif.Outbound
import Verif.Props.Outbound
import Verif.CloseClient
import Verif.Props.CloseClient
import Verif.ApiInit
import Verif.Props.ApiInit
import Verif.Props.Seek
import Verif.Props.Ready
import Verif.Props.Told
import Verif.Bare
import Verif.Props.Range
import Verif.Spec.Broker
import Verif.Props.Alone
import Verif.Props.Sharp
import Verif.Spec.Sequence
import Verif.Props.Sequential
import Verif.Props.Linear
import Verif.Props.LinearCases
import Verif.Props.Members
import Verif.Props.Snapshot
import Verif.Props.Forward
import Verif.Words
import Verif.Props.Words
import Verif.Ranges
import Verif.Props.Ranges
import Verif.Props.Subscribed
import Verif.Props.Total
import Verif.Spec.Loose
import Verif.Parses
import Verif.Accepts
import Verif.Props.Strict
import Verif.Props.HangUp
import Verif.Props.Accepted
import Verif.Props.Talk
import Verif.Net
import Verif.NetSim
import Verif.Replies
import Verif.Props.Net
import Verif.Props.Seen
import Verif.Props.SeenCases
import Verif.Props.Delivered
import Verif.Props.DeliveredCases
import Verif.Props.Polls
import Verif.Props.PollsCases
import Verif.Props.Origin
import Verif.Props.Least
import Verif.Props.LeastCases
import Verif.Props.Turns
import Verif.Props.TurnsCases
import Verif.Props.Once
import Verif.Props.OnceCases
import Verif.Props.Sizes
import Verif.Props.Modest
import Verif.Props.ModestCases
import Verif.Props.Ended
import Verif.Props.EndedCases
import Verif.Spec.Same
import Verif.Props.Same
import Verif.Props.SameCases
import Verif.Props.CloseReturns
import Verif.Spec.Life
import Verif.Props.Managed
import Verif.Props.TestEnds
import Verif.Props.TestEndsCases
import Verif.Dial
import Verif.Props.Arrivals
import Verif.Props.ArrivalsCases
import Verif.Mute
import Verif.Props.Mute
import Verif.Props.MuteCases
import Verif.Props.Dam
import Verif.Props.DamCases
import Verif.Props.Wake
import Verif.Props.Work
import Verif.Props.Small
import Verif.Props.SmallCases
import Verif.Props.Member
import Verif.Props.MemberCases
import Verif.Props.Later
import Verif.Props.Known
import Verif.Props.Back
import Verif.Props.BackCases
import Verif.Props.Count
import Verif.Props.CountCases
import Verif.Props.OnwardCases
import Verif.Props.Onward
import Verif.Props.Tally
import Verif.Props.TallyCases
import Verif.Props.NoneLost
import Verif.Props.NoneLostCases
import Verif.Props.Tail
import Verif.Props.TailCases
import Verif.Props.Agree
import Verif.Props.AgreeCases
import Verif.Props.SeekPosts
import Verif.Props.SeekPostsCases
import Verif.Props.Forever
import Verif.Props.ForeverCases
import Verif.Props.Returns
import Verif.Props.ReturnsCases
import Verif.Props.LockFair
import Verif.Props.LockFairCases
import Verif.Props.Exactly
import Verif.Props.ExactlyCases
import Verif.Props.CloseDone
import Verif.Props.CloseDoneCases
