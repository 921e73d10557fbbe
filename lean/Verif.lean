import Verif.Props.Arrays
import Verif.Props.Deque
import Verif.Props.Vector
import Verif.Props.Stores
import Verif.Props.Pack
import Verif.Props.Codec
import Verif.Props.Compare
import Verif.Props.Dates
import Verif.Props.Snowflake
import Verif.Props.Index
import Verif.Props.IndexMap
import Verif.Props.IndexWalk
import Verif.Props.KeyTypes
import Verif.Props.Hydra
import Verif.Props.Heap
import Verif.Props.Sort
import Verif.Props.SortMem
import Verif.Props.Bi
import Verif.Props.BiCases
import Verif.Props.Floats
import Verif.Props.Convert
import Verif.Props.Timeout
import Verif.Props.Inverted
import Verif.Props.School
import Verif.Props.Strings
import Verif.Props.Callbacks
import Verif.Props.CallbacksIndex
import Verif.Props.IteratorUse
import Verif.Props.CallbacksHeap
import Verif.Props.HeapEff
import Verif.Model.CopySelf
import Verif.Proofs.Blind
import Verif.Proofs.IndexCap
import Verif.Props.CopySelf
import Verif.Props.IndexCap
import Verif.Props.CallbacksIndex2
import Verif.Props.ConvertExact
import Verif.Spec.Snowflake
import Verif.Props.SnowflakeIdeal
import Verif.Gen.CapacityCalculator
import Verif.Gen.InitializationException
import Verif.Gen.KeyArray
import Verif.Gen.GenericArray
import Verif.Gen.KeyChunkMatrixStore
import Verif.Gen.KeyChunkStore
import Verif.Gen.KeyDeque
import Verif.Gen.KeyVector
import Verif.Gen.NumUtils
import Verif.Gen.Prelude
import Verif.Gen.RangeCheckException
import Verif.Link.Arrays
import Verif.Link.Basic
import Verif.Link.Deque
import Verif.Link.Stores
import Verif.Link.Vector
import Verif.Gen.KeyValueIndexedMap
import Verif.Gen.KeyIndexedSet
import Verif.Link.Sim
import Verif.Link.Keeps
import Verif.Link.Index1
import Verif.Link.Index2
import Verif.Link.Index3
import Verif.Link.Index4
import Verif.Link.Index5
import Verif.Link.Index6
import Verif.Gen.KeyValueHeap
import Verif.Link.Heap
import Verif.Link.Hydra
import Verif.Link.HydraRun
import Verif.Link.Set1
import Verif.Link.Set2
import Verif.Link.Set3
import Verif.Link.Set4
import Verif.Gen.KeyValueCompanionSort
import Verif.Link.Sort
import Verif.Link.SortC
import Verif.Gen.Pairs
import Verif.Link.Bi7
import Verif.Gen.Jdk
import Verif.Gen.Types
import Verif.Gen.Snowflake
import Verif.Link.Types4
import Verif.Link.Types5
import Verif.Link.Snowflake
import Verif.Link.ArraysProps
import Verif.Props.IteratorEnd
import Verif.Gen.EntryIterator
import Verif.Link.Iterator
import Verif.Link.IteratorSet
import Verif.Link.DequeProps
import Verif.Link.HeapProps
import Verif.Link.HydraProps
import Verif.Link.StoresProps
import Verif.Link.IndexProps
import Verif.Link.IndexProps2
import Verif.Link.Bi8
import Verif.Link.HeapCallbacks
import Verif.Link.IndexCallbacks
import Verif.Spec.Unchanged
import Verif.Proofs.Unchanged
import Verif.Props.Unchanged
import Verif.Link.Unchanged
import Verif.Conformance.Containers
import Verif.Conformance.Hashed
import Verif.Conformance.Ordered
import Verif.Conformance.Types
import Verif.Model.IndexEff
import Verif.Spec.IndexEff
import Verif.Proofs.IndexEff
import Verif.Proofs.IndexEff2
import Verif.Proofs.IndexEff3
import Verif.Props.IndexEff
import Verif.Gen.KeyValueIndexedMapEff
import Verif.Link.IndexEff
import Verif.Link.IndexEffProps
import Verif.Gen.KeyIndexedSetEff
import Verif.Link.SetEff
import Verif.Link.SetEffProps
import Verif.Gen.KeyValueHeapEff
import Verif.Link.HeapEff
import Verif.Link.HeapEffProps
import Verif.Link.Walk
import Verif.Link.WalkProps
import Verif.Spec.Growth
import Verif.Proofs.Growth
import Verif.Link.Growth
import Verif.Spec.StoresAny
import Verif.Proofs.StoresAny
import Verif.Props.StoresAny
import Verif.Link.StoresAny
import Verif.Spec.GrowthHydra
import Verif.Proofs.GrowthHydra
import Verif.Link.GrowthHydra
import Verif.Spec.Script
import Verif.Link.Script
import Verif.Link.ScriptIndex
import Verif.Link.ScriptSet
import Verif.Link.ScriptBiClear
import Verif.Link.ScriptBiAll
import Verif.Link.ScriptIndexIf
import Verif.Link.ScriptIndexReplace
import Verif.Link.ScriptQueue
import Verif.Link.ScriptQueueEndless
import Verif.Link.ScriptHeapHalf
