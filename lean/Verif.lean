import Verif.Lemmas.Accept
import Verif.Lemmas.Access
import Verif.Lemmas.AddFmpq
import Verif.Lemmas.Agree
import Verif.Lemmas.Archive
import Verif.Lemmas.Arf
import Verif.Lemmas.Arrays
import Verif.Lemmas.ArraysBound
import Verif.Lemmas.ArraysCount
import Verif.Lemmas.ArraysIsolate
import Verif.Lemmas.ArraysLast
import Verif.Lemmas.ArraysMore
import Verif.Lemmas.ArraysVca
import Verif.Lemmas.Assertions
import Verif.Lemmas.AssertionsCxx
import Verif.Lemmas.Ball
import Verif.Lemmas.CatchEnds
import Verif.Lemmas.Cluster
import Verif.Lemmas.Concurrent
import Verif.Lemmas.ConcurrentAlone
import Verif.Lemmas.Cond
import Verif.Lemmas.Converge
import Verif.Lemmas.ConvergeInst
import Verif.Lemmas.ConvergeRound
import Verif.Lemmas.Convert
import Verif.Lemmas.Cubic
import Verif.Lemmas.Cxx
import Verif.Lemmas.CxxArith
import Verif.Lemmas.CxxDemo
import Verif.Lemmas.CxxDerived
import Verif.Lemmas.CxxEnds
import Verif.Lemmas.CxxExec
import Verif.Lemmas.CxxOps
import Verif.Lemmas.CxxRun
import Verif.Lemmas.CxxSetting
import Verif.Lemmas.Demo
import Verif.Lemmas.DemoSqrt
import Verif.Lemmas.Descartes
import Verif.Lemmas.DescartesRoots
import Verif.Lemmas.Double
import Verif.Lemmas.ElemOps
import Verif.Lemmas.Ends
import Verif.Lemmas.EndsDiv
import Verif.Lemmas.EndsGetD
import Verif.Lemmas.EndsNear
import Verif.Lemmas.EndsOps
import Verif.Lemmas.EndsQuery
import Verif.Lemmas.FastNf
import Verif.Lemmas.FieldInst
import Verif.Lemmas.Fields
import Verif.Lemmas.Force
import Verif.Lemmas.FpArb
import Verif.Lemmas.GetD
import Verif.Lemmas.Hoare
import Verif.Lemmas.Init
import Verif.Lemmas.Isolate
import Verif.Lemmas.Json
import Verif.Lemmas.KDecide
import Verif.Lemmas.Keep
import Verif.Lemmas.Make
import Verif.Lemmas.MemOrder
import Verif.Lemmas.NearDouble
import Verif.Lemmas.Nf
import Verif.Lemmas.NfInst
import Verif.Lemmas.NfPred
import Verif.Lemmas.NoThrow
import Verif.Lemmas.Ops
import Verif.Lemmas.PolyExtra
import Verif.Lemmas.Ptr
import Verif.Lemmas.Py
import Verif.Lemmas.PyDemo
import Verif.Lemmas.PyNum
import Verif.Lemmas.PyReal
import Verif.Lemmas.PyRegex
import Verif.Lemmas.PyText
import Verif.Lemmas.Query
import Verif.Lemmas.Rand
import Verif.Lemmas.Rationals
import Verif.Lemmas.Refine
import Verif.Lemmas.RefineTerm
import Verif.Lemmas.RefineTerm2
import Verif.Lemmas.Registry
import Verif.Lemmas.Resource
import Verif.Lemmas.RootBound
import Verif.Lemmas.RootCount
import Verif.Lemmas.RootInst
import Verif.Lemmas.Round
import Verif.Lemmas.Same
import Verif.Lemmas.SamePy
import Verif.Lemmas.SameText
import Verif.Lemmas.Scale01
import Verif.Lemmas.Scale2Inst
import Verif.Lemmas.Sequential
import Verif.Lemmas.SignVar
import Verif.Lemmas.StreamField
import Verif.Lemmas.Sturm
import Verif.Lemmas.SturmInst
import Verif.Lemmas.SturmLoop
import Verif.Lemmas.SturmMult
import Verif.Lemmas.Text
import Verif.Lemmas.TextCxx
import Verif.Lemmas.TextEnds
import Verif.Lemmas.TextIO
import Verif.Lemmas.TextProg
import Verif.Lemmas.Threads
import Verif.Lemmas.Tight
import Verif.Lemmas.Total
import Verif.Lemmas.Vca
import Verif.Lemmas.Vincent
import Verif.Model.Access
import Verif.Model.AddFmpq
import Verif.Model.Archive
import Verif.Model.Arf
import Verif.Model.Arrays
import Verif.Model.ArraysLast
import Verif.Model.ArraysMore
import Verif.Model.Ball
import Verif.Model.Concurrent
import Verif.Model.Convert
import Verif.Model.Cxx
import Verif.Model.Descartes
import Verif.Model.Elem
import Verif.Model.Field
import Verif.Model.Fields
import Verif.Model.GetD
import Verif.Model.Init
import Verif.Model.Json
import Verif.Model.Make
import Verif.Model.Mem
import Verif.Model.MemOrder
import Verif.Model.Nf
import Verif.Model.Ops
import Verif.Model.PolyExtra
import Verif.Model.Ptr
import Verif.Model.Py
import Verif.Model.PyNum
import Verif.Model.Query
import Verif.Model.Rand
import Verif.Model.Refine
import Verif.Model.Registry
import Verif.Model.Res
import Verif.Model.Resource
import Verif.Model.ResourceCxx
import Verif.Model.RootBound
import Verif.Model.SageProg
import Verif.Model.Scale01
import Verif.Model.StreamField
import Verif.Model.Sturm
import Verif.Model.Text
import Verif.Model.TextIO
import Verif.Model.TextProg
import Verif.Model.Vca
import Verif.Props.Accept
import Verif.Props.Archive
import Verif.Props.Arrays
import Verif.Props.ArraysLast
import Verif.Props.Assertions
import Verif.Props.CatchEnds
import Verif.Props.Concurrent
import Verif.Props.Cxx
import Verif.Props.CxxEnds
import Verif.Props.Derived
import Verif.Props.Elements
import Verif.Props.Ends
import Verif.Props.Except
import Verif.Props.Fields
import Verif.Props.FromText
import Verif.Props.Json
import Verif.Props.Make
import Verif.Props.MemOrder
import Verif.Props.Modelled
import Verif.Props.PolyExtra
import Verif.Props.Ptr
import Verif.Props.Py
import Verif.Props.PyEnds
import Verif.Props.PyNum
import Verif.Props.PyProg
import Verif.Props.PyRegistry
import Verif.Props.Rand
import Verif.Props.Rationals
import Verif.Props.RefineTerm
import Verif.Props.Refinement
import Verif.Props.Registry
import Verif.Props.Resource
import Verif.Props.RootIsolation
import Verif.Props.SageProg
import Verif.Props.Same
import Verif.Props.SamePy
import Verif.Props.SameSage
import Verif.Props.SameText
import Verif.Props.Sequential
import Verif.Props.StreamField
import Verif.Props.Sturm
import Verif.Props.Termination
import Verif.Props.Text
import Verif.Props.TextProg
import Verif.Props.Threads
import Verif.Spec.Accept
import Verif.Spec.Archive
import Verif.Spec.Arrays
import Verif.Spec.ArraysAfter
import Verif.Spec.Assertions
import Verif.Spec.CFrac
import Verif.Spec.CatchEnds
import Verif.Spec.Concurrent
import Verif.Spec.Converge
import Verif.Spec.Cxx
import Verif.Spec.CxxEnds
import Verif.Spec.Double
import Verif.Spec.Ends
import Verif.Spec.FieldText
import Verif.Spec.Fields
import Verif.Spec.Json
import Verif.Spec.Legal
import Verif.Spec.Make
import Verif.Spec.MemOrder
import Verif.Spec.Near
import Verif.Spec.NearBy
import Verif.Spec.Ops
import Verif.Spec.Poly
import Verif.Spec.Py
import Verif.Spec.PyNum
import Verif.Spec.PyProg
import Verif.Spec.QPoly
import Verif.Spec.Query
import Verif.Spec.Rand
import Verif.Spec.RatReader
import Verif.Spec.Rationals
import Verif.Spec.Registry
import Verif.Spec.Resource
import Verif.Spec.SageProg
import Verif.Spec.Same
import Verif.Spec.SamePy
import Verif.Spec.SameText
import Verif.Spec.Secure
import Verif.Spec.Sequential
import Verif.Spec.Store
import Verif.Spec.Sturm
import Verif.Spec.Text
import Verif.Spec.TextIO
import Verif.Spec.TextProg
import Verif.Spec.TextSeq
import Verif.Spec.Threads
import Verif.Spec.Tight
import Verif.Spec.Value
import Verif.Spec.VcaReach
import Verif.Spec.Visits
import Verif.Spec.Window
import Verif.Upstream.Elements
import Verif.Upstream.Roots
import Verif.Upstream.Text
