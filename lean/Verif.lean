import Verif.Model.Basic
import Verif.Model.Builders
import Verif.Model.CloneEffect
import Verif.Model.Cost
import Verif.Model.DebugPrint
import Verif.Model.Dump
import Verif.Model.FmtEffect
import Verif.Model.Forest
import Verif.Model.Hierarchy
import Verif.Model.History
import Verif.Model.NonMax
import Verif.Model.OwnId
import Verif.Model.Proxy
import Verif.Model.Release
import Verif.Model.StdIter
import Verif.Model.Steps
import Verif.Model.Traverse
import Verif.Model.Wild
import Verif.Proof.Agree
import Verif.Proof.Attach
import Verif.Proof.Bfs
import Verif.Proof.Build
import Verif.Proof.Builders
import Verif.Proof.Capacity
import Verif.Proof.Careless
import Verif.Proof.Clone
import Verif.Proof.CloneEffect
import Verif.Proof.Complete
import Verif.Proof.Connect
import Verif.Proof.Consist
import Verif.Proof.Contain
import Verif.Proof.CopyAny
import Verif.Proof.CopyEffect
import Verif.Proof.Cost
import Verif.Proof.CreateInsert
import Verif.Proof.Damage
import Verif.Proof.DamageSeen
import Verif.Proof.DataSub
import Verif.Proof.Dead
import Verif.Proof.Deque
import Verif.Proof.Detach
import Verif.Proof.DetachSingle
import Verif.Proof.Dft
import Verif.Proof.Dump
import Verif.Proof.DumpData
import Verif.Proof.ErrKeeps
import Verif.Proof.FmtEffect
import Verif.Proof.Footprint
import Verif.Proof.ForestOps
import Verif.Proof.Fresh
import Verif.Proof.Fuel
import Verif.Proof.FuelClone
import Verif.Proof.FuelCount
import Verif.Proof.FuelLoops
import Verif.Proof.FuelMut
import Verif.Proof.FuelPrint
import Verif.Proof.Graft
import Verif.Proof.Hang
import Verif.Proof.HangBft
import Verif.Proof.HangBuild
import Verif.Proof.HangCause
import Verif.Proof.HangDetach
import Verif.Proof.HangWhy
import Verif.Proof.History
import Verif.Proof.InPlace
import Verif.Proof.Insert
import Verif.Proof.Iso
import Verif.Proof.IterRaw
import Verif.Proof.Keeps
import Verif.Proof.Laws
import Verif.Proof.Ledger
import Verif.Proof.Links
import Verif.Proof.Lists
import Verif.Proof.Local
import Verif.Proof.LocalBuild
import Verif.Proof.LocalForest
import Verif.Proof.LocalHier
import Verif.Proof.LocalIter
import Verif.Proof.LocalRead
import Verif.Proof.Looks
import Verif.Proof.LooksClient
import Verif.Proof.LooksCreate
import Verif.Proof.LooksDialogue
import Verif.Proof.LooksInsert
import Verif.Proof.LooksMut
import Verif.Proof.LooksSingle
import Verif.Proof.Mach
import Verif.Proof.MapData
import Verif.Proof.Marked
import Verif.Proof.Mend
import Verif.Proof.Move
import Verif.Proof.Order
import Verif.Proof.OwnId
import Verif.Proof.Paths
import Verif.Proof.Plain
import Verif.Proof.PlainEdit
import Verif.Proof.PlainRead
import Verif.Proof.PlainSim
import Verif.Proof.PlainStep
import Verif.Proof.Pool
import Verif.Proof.PrintSame
import Verif.Proof.Printed
import Verif.Proof.PrintedPic
import Verif.Proof.Raw
import Verif.Proof.Release
import Verif.Proof.ReleaseHist
import Verif.Proof.Remove
import Verif.Proof.Render
import Verif.Proof.Repair
import Verif.Proof.Session
import Verif.Proof.Shape
import Verif.Proof.Sibs
import Verif.Proof.StdIter
import Verif.Proof.StepsBase
import Verif.Proof.StepsClone
import Verif.Proof.StepsDetach
import Verif.Proof.StepsInsert
import Verif.Proof.Taint
import Verif.Proof.Trees
import Verif.Proof.Walk
import Verif.Proof.Wild
import Verif.Proof.World
import Verif.Proof.Wreck
import Verif.Props.Build
import Verif.Props.Builders
import Verif.Props.Careless
import Verif.Props.Census
import Verif.Props.Clone
import Verif.Props.CloneEffect
import Verif.Props.Commute
import Verif.Props.Complete
import Verif.Props.Consistency
import Verif.Props.Copy
import Verif.Props.CopyAny
import Verif.Props.CopyEffect
import Verif.Props.Cost
import Verif.Props.Create
import Verif.Props.Damage
import Verif.Props.DataFree
import Verif.Props.Detach
import Verif.Props.Dump
import Verif.Props.Failures
import Verif.Props.FmtEffect
import Verif.Props.Footprint
import Verif.Props.Hang
import Verif.Props.HangBuild
import Verif.Props.HangCause
import Verif.Props.History
import Verif.Props.IdType
import Verif.Props.Ids
import Verif.Props.Insert
import Verif.Props.Latent
import Verif.Props.Laws
import Verif.Props.Ledger
import Verif.Props.Local
import Verif.Props.Looks
import Verif.Props.Mend
import Verif.Props.Motion
import Verif.Props.NoPanic
import Verif.Props.OwnId
import Verif.Props.Plain
import Verif.Props.Pool
import Verif.Props.Print
import Verif.Props.Printed
import Verif.Props.Proxy
import Verif.Props.Release
import Verif.Props.ReleaseHist
import Verif.Props.Remove
import Verif.Props.RepoTests
import Verif.Props.Salvage
import Verif.Props.Same
import Verif.Props.Sample
import Verif.Props.SampleRun
import Verif.Props.Session
import Verif.Props.StdIter
import Verif.Props.Steps
import Verif.Props.Traverse
import Verif.Props.Wild
import Verif.Props.World
import Verif.Props.Wreck
import Verif.Spec.Build
import Verif.Spec.Builder
import Verif.Spec.Careful
import Verif.Spec.Clone
import Verif.Spec.CloneEffect
import Verif.Spec.Complete
import Verif.Spec.CopyAny
import Verif.Spec.CopyEffect
import Verif.Spec.Cost
import Verif.Spec.Damage
import Verif.Spec.FmtEffect
import Verif.Spec.Footprint
import Verif.Spec.Forest
import Verif.Spec.Hang
import Verif.Spec.History
import Verif.Spec.Hook
import Verif.Spec.Iter
import Verif.Spec.Ledger
import Verif.Spec.Local
import Verif.Spec.LocalRelease
import Verif.Spec.Looks
import Verif.Spec.MapData
import Verif.Spec.Mend
import Verif.Spec.Models
import Verif.Spec.OwnId
import Verif.Spec.Plain
import Verif.Spec.Pool
import Verif.Spec.Printed
import Verif.Spec.Remove
import Verif.Spec.Render
import Verif.Spec.Salvage
import Verif.Spec.Session
import Verif.Spec.StdIter
import Verif.Spec.Steps
import Verif.Spec.Tree
import Verif.Spec.WellUsed
import Verif.Spec.Wild
import Verif.Spec.World
import Verif.Spec.Wreck
