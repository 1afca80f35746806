import Verif.Props.Typenum
import Verif.Props.Layout
import Verif.Props.Sum
import Verif.Props.Niche
import Verif.Props.Num
import Verif.Props.Time
import Verif.Props.Report
import Verif.Props.Vec
import Verif.Props.Boxed
import Verif.Props.Sov
import Verif.Props.Shared
import Verif.Props.Str
import Verif.Props.Arc
import Verif.Props.Order
import Verif.Props.DynDrop
import Verif.Props.Options
import Verif.Props.Bounds
import Verif.Props.Atomic
import Verif.Props.BTree
import Verif.Props.AtomicSet
import Verif.Props.Registry
import Verif.Props.Import
import Verif.Props.Waker
import Verif.Props.Plain
import Verif.Props.Dyn
import Verif.Props.AllocLayout
import Verif.Props.AllocPtr
import Verif.Props.Allocators
import Verif.Props.TyOps
import Verif.Props.Canary
import Verif.Props.Guard
import Verif.Future.Resolved
import Verif.Props.Resolved
import Verif.Props.Load
import Verif.Props.Threads
import Verif.Props.Variance
import Verif.Props.Combi
import Verif.Props.Unwind
import Verif.Props.Platform
import Verif.Props.Optimal
import Verif.Props.Traits
import Verif.Props.Box
import Verif.Props.VtEq
import Verif.Props.Slice
import Verif.Props.Serde
import Verif.Props.Zst
import Verif.Props.Functions
import Verif.Props.Publish
import Verif.Props.Free
import Verif.Props.BTreeUnwind
import Verif.Props.ReprAttr
import Verif.Props.CType
import Verif.Props.Generic
import Verif.Props.DynOwner
import Verif.Props.Pinned
import Verif.Props.TimeConv
import Verif.Props.Compare
import Verif.Props.Force
import Verif.Props.Written
import Verif.Props.Expand
import Verif.Props.DynPtr
import Verif.Props.Options
import Verif.Props.Bounds
import Verif.Props.Methods
import Verif.Props.Fmt
import Verif.Props.Generics
import Verif.Props.Handles
import Verif.Props.Failure
import Verif.Props.Includes
import Verif.Props.Found
import Verif.Props.Cell
import Verif.Props.Forget
import Verif.Props.Pass
import Verif.Props.Cow
import Verif.Props.BTreeMap
import Verif.Props.ForgetIff
import Verif.Props.SovMut
import Verif.Props.Names
import Verif.Props.Cfg
import Verif.Props.Own
import Verif.Props.ReportText
import Verif.Props.Ids
import Verif.Props.SameLayout
import Verif.Props.Check
import Verif.Props.Dispatch
import Verif.Props.Like
import Verif.Props.RepoTests
import Verif.Props.Root
import Verif.Props.Checks
import Verif.Props.Lifetime
import Verif.Props.Foreign
import Verif.Props.Closure
import Verif.Props.Document
import Verif.Props.EnumOptimal
import Verif.Props.Version
