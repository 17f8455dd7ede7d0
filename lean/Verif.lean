import Verif.Axioms
import Verif.Model.Alloc
import Verif.Model.Arith
import Verif.Model.Bench
import Verif.Model.Bool
import Verif.Model.Complex
import Verif.Model.Contract
import Verif.Model.Conv
import Verif.Model.Core
import Verif.Model.Count
import Verif.Model.Det
import Verif.Model.Env
import Verif.Model.Float
import Verif.Model.FloatConv
import Verif.Model.Format
import Verif.Model.Include
import Verif.Model.Lookup
import Verif.Model.Mode
import Verif.Model.Movement
import Verif.Model.Narrow
import Verif.Model.Operators
import Verif.Model.Overload
import Verif.Model.Reorder
import Verif.Model.Scalar
import Verif.Model.Stats
import Verif.Model.Stream
import Verif.Model.Type
import Verif.Proof.Alloc
import Verif.Proof.Arith
import Verif.Proof.Bool
import Verif.Proof.BoolFactor
import Verif.Proof.Carry
import Verif.Proof.Check
import Verif.Proof.Chol
import Verif.Proof.CholRoot
import Verif.Proof.Contract
import Verif.Proof.ContractDet
import Verif.Proof.ContractLu
import Verif.Proof.Conv
import Verif.Proof.Count
import Verif.Proof.Det
import Verif.Proof.DetSafe
import Verif.Proof.Dominant
import Verif.Proof.Elementwise
import Verif.Proof.Env
import Verif.Proof.EnvOps
import Verif.Proof.Float
import Verif.Proof.FloatChol
import Verif.Proof.FloatCholPD
import Verif.Proof.FloatDet
import Verif.Proof.FloatDominant
import Verif.Proof.FloatElim
import Verif.Proof.FloatFinite
import Verif.Proof.FloatLu
import Verif.Proof.FloatLuDom
import Verif.Proof.FloatMat
import Verif.Proof.FloatMono
import Verif.Proof.FloatOps
import Verif.Proof.FloatPow
import Verif.Proof.FloatRes
import Verif.Proof.FloatRound
import Verif.Proof.FloatSign
import Verif.Proof.FloatSignDet
import Verif.Proof.FloatTrack
import Verif.Proof.FloatTwice
import Verif.Proof.Format
import Verif.Proof.Graded
import Verif.Proof.Hist
import Verif.Proof.HistKey
import Verif.Proof.Include
import Verif.Proof.IntChol
import Verif.Proof.IntLu
import Verif.Proof.IntSqrt
import Verif.Proof.Inv
import Verif.Proof.Levels
import Verif.Proof.Lu
import Verif.Proof.Mode
import Verif.Proof.ModeLevels
import Verif.Proof.Movement
import Verif.Proof.Narrow
import Verif.Proof.NarrowChol
import Verif.Proof.NarrowConv
import Verif.Proof.NarrowId
import Verif.Proof.NarrowLu
import Verif.Proof.NarrowPow
import Verif.Proof.NarrowSafe
import Verif.Proof.Nested
import Verif.Proof.NestedNarrow
import Verif.Proof.Order
import Verif.Proof.Overload
import Verif.Proof.Pow
import Verif.Proof.Range
import Verif.Proof.Reorder
import Verif.Proof.RowMajor
import Verif.Proof.Safety
import Verif.Proof.Scale
import Verif.Proof.Scan
import Verif.Proof.Silent
import Verif.Proof.Sim
import Verif.Proof.SimHom
import Verif.Proof.Standard
import Verif.Proof.StandardDet
import Verif.Proof.StandardLu
import Verif.Proof.StandardPow
import Verif.Proof.StandardStats
import Verif.Proof.Stats
import Verif.Proof.StatsLaws
import Verif.Proof.Strassen
import Verif.Proof.Tri
import Verif.Proof.TriInst
import Verif.Proof.Wp
import Verif.Props.Agree
import Verif.Props.Alloc
import Verif.Props.Apart
import Verif.Props.Arith
import Verif.Props.Bench
import Verif.Props.BenchRun
import Verif.Props.BoolArith
import Verif.Props.BoolConv
import Verif.Props.BoolDet
import Verif.Props.BoolFactor
import Verif.Props.BoolStats
import Verif.Props.Carry
import Verif.Props.Check
import Verif.Props.Chol
import Verif.Props.Complex
import Verif.Props.ComplexAlgebra
import Verif.Props.Contract
import Verif.Props.Conv
import Verif.Props.ConvLaws
import Verif.Props.Count
import Verif.Props.Det
import Verif.Props.Dominant
import Verif.Props.Env
import Verif.Props.Float
import Verif.Props.FloatCholPD
import Verif.Props.FloatConv
import Verif.Props.FloatDetForward
import Verif.Props.FloatDominant
import Verif.Props.FloatElim
import Verif.Props.FloatEqual
import Verif.Props.FloatFactor
import Verif.Props.FloatInv
import Verif.Props.FloatInvN
import Verif.Props.FloatLuDom
import Verif.Props.FloatMono
import Verif.Props.FloatOrder
import Verif.Props.FloatPow
import Verif.Props.FloatRange
import Verif.Props.FloatSign
import Verif.Props.FloatStrassen
import Verif.Props.FloatTwice
import Verif.Props.FloatVar
import Verif.Props.Form
import Verif.Props.FormMachine
import Verif.Props.Gram
import Verif.Props.Hist
import Verif.Props.Include
import Verif.Props.IntChol
import Verif.Props.IntElem
import Verif.Props.IntEnv
import Verif.Props.IntFloat
import Verif.Props.IntInv
import Verif.Props.IntLu
import Verif.Props.IntStats
import Verif.Props.Inv
import Verif.Props.Lookup
import Verif.Props.Lu
import Verif.Props.Mode
import Verif.Props.Movement
import Verif.Props.NarrowArith
import Verif.Props.NarrowConv
import Verif.Props.NarrowDet
import Verif.Props.NarrowFactor
import Verif.Props.NarrowHist
import Verif.Props.NarrowPow
import Verif.Props.NarrowSafety
import Verif.Props.NarrowStats
import Verif.Props.Nested
import Verif.Props.Operators
import Verif.Props.Pow
import Verif.Props.Preds
import Verif.Props.Print
import Verif.Props.PrintNum
import Verif.Props.Range
import Verif.Props.RangeInv
import Verif.Props.Reorder
import Verif.Props.RoundedLaws
import Verif.Props.Safety
import Verif.Props.Scale
import Verif.Props.Silent
import Verif.Props.Standard
import Verif.Props.StandardPow
import Verif.Props.StandardStats
import Verif.Props.Stats
import Verif.Props.StatsLaws
import Verif.Props.Stops
import Verif.Props.Stream
import Verif.Props.Structure
import Verif.Props.StructureNarrow
import Verif.Props.Type
import Verif.Props.Unsigned
import Verif.Props.Widen
import Verif.Props.Width
import Verif.Spec.Apart
import Verif.Spec.Bool
import Verif.Spec.BoolFactor
import Verif.Spec.Carry
import Verif.Spec.Complex
import Verif.Spec.Conv
import Verif.Spec.Count
import Verif.Spec.Dominant
import Verif.Spec.Elementwise
import Verif.Spec.Env
import Verif.Spec.Exact
import Verif.Spec.Float
import Verif.Spec.FloatConv
import Verif.Spec.FloatElim
import Verif.Spec.FloatOrder
import Verif.Spec.FloatSafety
import Verif.Spec.FloatSign
import Verif.Spec.FloatStats
import Verif.Spec.Form
import Verif.Spec.FormEnv
import Verif.Spec.Include
import Verif.Spec.IntDiv
import Verif.Spec.IntFactor
import Verif.Spec.Linear
import Verif.Spec.Mode
import Verif.Spec.Narrow
import Verif.Spec.NarrowFactor
import Verif.Spec.Nested
import Verif.Spec.Order
import Verif.Spec.Pool
import Verif.Spec.Print
import Verif.Spec.Range
import Verif.Spec.Read
import Verif.Spec.Safety
import Verif.Spec.Scale
import Verif.Spec.Silent
import Verif.Spec.Standard
import Verif.Spec.Stops
import Verif.Spec.Stream
import Verif.Spec.Structure
import Verif.Spec.Type
import Verif.Spec.Widen
import Verif.Spec.Width
import Verif.Test.Repo
