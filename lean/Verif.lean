import Verif.AppArgs
import Verif.AppArgsProofs
import Verif.AppOps
import Verif.AppOpsProofs
import Verif.AppParallel
import Verif.AppText
import Verif.AppTextProofs
import Verif.Attr
import Verif.AttrMP
import Verif.AttrMPProofs
import Verif.AttrProofs1
import Verif.AttrProofs2
import Verif.AttrProofs3
import Verif.AttrProofs4
import Verif.AttrProofs5
import Verif.AttrProofs6
import Verif.Audit
import Verif.BigNumber
import Verif.BigNumberProofs
import Verif.BigNumberProofs2
import Verif.BinaryOperation
import Verif.BinaryOperationProofs
import Verif.BinaryOperationProofs2
import Verif.BuildExt
import Verif.Builder
import Verif.BuilderHash
import Verif.BuilderMP
import Verif.BuilderMPProofs1
import Verif.BuilderMPProofs2
import Verif.BuilderMPProofs3
import Verif.BuilderMPProofs4
import Verif.BuilderMPProofs5
import Verif.BuilderMap
import Verif.BuilderPerm
import Verif.BuilderProofs1
import Verif.BuilderProofs2
import Verif.BuilderProofs3
import Verif.BuilderProofs4
import Verif.BuilderProofs5
import Verif.BuilderProofs6
import Verif.BuilderProofs7
import Verif.Cardinality
import Verif.CardinalityProofs
import Verif.Cells
import Verif.CellsProofs
import Verif.CnfApp
import Verif.CnfAppProofs
import Verif.CnfBdd
import Verif.CnfBddApp
import Verif.CnfBddAppProofs
import Verif.CnfBddCudd
import Verif.CnfBddMap
import Verif.CnfBddMap2
import Verif.CnfBddMapOk
import Verif.CnfBddReach
import Verif.CnfBddSem
import Verif.CnfBddTab
import Verif.CnfLabel
import Verif.CnfLabelProofs
import Verif.CnfPicture
import Verif.CnfPictureProofs
import Verif.CnfRead
import Verif.CnfReadProofs
import Verif.CnfReadSpec
import Verif.CnfSpec
import Verif.CnfZtdd
import Verif.CnfZtddProofs
import Verif.CnfZtddProofs2
import Verif.CnfZtddProofs3
import Verif.Conc
import Verif.ConcProofs
import Verif.ConvCanon
import Verif.Counting
import Verif.CuddProofs
import Verif.DataTable
import Verif.DataTableProofs
import Verif.DataTableProofs2
import Verif.DataTableProofs3
import Verif.DataTableSpec
import Verif.DdPaths
import Verif.DdPathsDegree
import Verif.DdPathsOutput
import Verif.DdPathsProofs
import Verif.DdPathsSpec
import Verif.DdPathsSpec2
import Verif.DegreeConstraint
import Verif.DegreeProofs
import Verif.Demangle
import Verif.Dense
import Verif.Dump
import Verif.DumpProofs
import Verif.Equality
import Verif.EqualityProofs
import Verif.Evaluate
import Verif.EvaluateFine
import Verif.EvaluateFineProofs
import Verif.EvaluateProofs
import Verif.FbChecks
import Verif.FbConn
import Verif.FbLists
import Verif.FbMeans
import Verif.FbMerge
import Verif.FbSem
import Verif.FbUpdate
import Verif.FbWorld
import Verif.FixedBig
import Verif.FrontierSearch
import Verif.Gc
import Verif.GcProofs
import Verif.Graph
import Verif.GraphProofs
import Verif.GraphProofs2
import Verif.GraphProofs3
import Verif.GraphProofs4
import Verif.GraphProofs5
import Verif.GraphText
import Verif.GraphTextProofs
import Verif.Graphillion
import Verif.GraphillionApp
import Verif.GraphillionAppProofs
import Verif.GraphillionPaths
import Verif.GraphillionProofs
import Verif.GraphillionProofs2
import Verif.GraphillionSpec
import Verif.GridPath
import Verif.GridPathComb
import Verif.GridPathEdges
import Verif.GridPathSem
import Verif.GridPathStep
import Verif.Handler
import Verif.HandlerProofs
import Verif.HashTable
import Verif.HashTableProofs
import Verif.IStream
import Verif.IndexFine
import Verif.IndexFineProofs
import Verif.IndexProofs
import Verif.Interleave
import Verif.InterleaveProofs
import Verif.InterleaveProofs2
import Verif.InterleaveProofs3
import Verif.Iterator
import Verif.IteratorProofs
import Verif.LinearConstraints
import Verif.LinearProofs
import Verif.LinearProofs2
import Verif.LinearProofs3
import Verif.ListLemmas
import Verif.Lookahead
import Verif.LookaheadProofs
import Verif.Mate
import Verif.MemoryPool
import Verif.MemoryPoolProofs
import Verif.MemoryPoolProofs2
import Verif.MemoryPoolProofs3
import Verif.MemoryPoolSpec
import Verif.Messages
import Verif.MessagesProofs
import Verif.MessagesProofs2
import Verif.MessagesProofs3
import Verif.MyBitSet
import Verif.MyBitSetProofs
import Verif.MyBitSetProofs2
import Verif.MyList
import Verif.MyListOnPool
import Verif.MyListOnPoolProofs
import Verif.MyListProofs
import Verif.MyListProofs2
import Verif.MyListProofs3
import Verif.MyListSpec
import Verif.MySmallSet
import Verif.MySmallSetProofs
import Verif.MySmallSetProofs2
import Verif.MyVector
import Verif.MyVectorProofs
import Verif.MyVectorProofs2
import Verif.MyVectorProofs3
import Verif.MyVectorSpec
import Verif.NAry
import Verif.NodeIdBits
import Verif.NodeIdBitsProofs
import Verif.Numlin
import Verif.NumlinAnswer
import Verif.NumlinApp
import Verif.NumlinAppProofs
import Verif.NumlinDegree
import Verif.NumlinFill
import Verif.NumlinFillProofs
import Verif.NumlinLabel
import Verif.NumlinLabelProofs
import Verif.NumlinMate
import Verif.NumlinMove
import Verif.NumlinPicture
import Verif.NumlinPictureProofs
import Verif.NumlinProofs
import Verif.NumlinRead
import Verif.NumlinReadProofs
import Verif.NumlinReadSpec
import Verif.NumlinReroute
import Verif.NumlinRun
import Verif.NumlinShort
import Verif.NumlinSpec
import Verif.NumlinTidy
import Verif.NumlinTidy2
import Verif.NumlinTidy3
import Verif.NumlinTurn
import Verif.NumlinWalk
import Verif.PathByMap
import Verif.PathByMapProofs
import Verif.PathByMapProofs2
import Verif.PathByMapProofs3
import Verif.PathByMapProofs4
import Verif.PathByMapProofs5
import Verif.PathByMapProofs6
import Verif.PathByMapProofs7
import Verif.PathComb
import Verif.PathCount
import Verif.PathCounter
import Verif.PathCounterProofs
import Verif.PathCounterProofs2
import Verif.PathCounterProofs3
import Verif.PathCounterProofs4
import Verif.PathProofs
import Verif.PathProofs2
import Verif.PathProofs3
import Verif.PathProofs4
import Verif.PathProofs5
import Verif.PathProofs6
import Verif.PathZdd
import Verif.Pipeline
import Verif.PodArray
import Verif.Props.AppArgs
import Verif.Props.AppParallel
import Verif.Props.AppText
import Verif.Props.Attr
import Verif.Props.AttrMP
import Verif.Props.BigNumber
import Verif.Props.Builder
import Verif.Props.BuilderMP
import Verif.Props.Cardinality
import Verif.Props.CnfApp
import Verif.Props.CnfBdd
import Verif.Props.CnfBddApp
import Verif.Props.CnfLabel
import Verif.Props.CnfPicture
import Verif.Props.CnfRead
import Verif.Props.CnfZtdd
import Verif.Props.ConvCanon
import Verif.Props.Counting
import Verif.Props.DataTable
import Verif.Props.DdPaths
import Verif.Props.DegreeConstraint
import Verif.Props.Demangle
import Verif.Props.Dump
import Verif.Props.Evaluate
import Verif.Props.EvaluateFine
import Verif.Props.FixedBig
import Verif.Props.FrontierSearch
import Verif.Props.Gc
import Verif.Props.Graph
import Verif.Props.GraphText
import Verif.Props.Graphillion
import Verif.Props.GraphillionApp
import Verif.Props.GridPath
import Verif.Props.Handler
import Verif.Props.HashTable
import Verif.Props.IndexFine
import Verif.Props.Interleave
import Verif.Props.Iterator
import Verif.Props.LinearConstraints
import Verif.Props.MemoryPool
import Verif.Props.Messages
import Verif.Props.MyBitSet
import Verif.Props.MyList
import Verif.Props.MySmallSet
import Verif.Props.MyVector
import Verif.Props.NAry
import Verif.Props.NodeIdBits
import Verif.Props.Numlin
import Verif.Props.NumlinApp
import Verif.Props.NumlinFill
import Verif.Props.NumlinLabel
import Verif.Props.NumlinPicture
import Verif.Props.NumlinRead
import Verif.Props.NumlinTidy
import Verif.Props.Operators
import Verif.Props.PathByMap
import Verif.Props.PathCounter
import Verif.Props.PathZdd
import Verif.Props.Queens
import Verif.Props.QueensApp
import Verif.Props.QueensColored
import Verif.Props.RandomDd
import Verif.Props.Readers
import Verif.Props.Reducer
import Verif.Props.ReducerFine
import Verif.Props.ReducerMP
import Verif.Props.Sapporo
import Verif.Props.SapporoLib
import Verif.Props.Searcher
import Verif.Props.SetText
import Verif.Props.SizeConstraint
import Verif.Props.StateStore
import Verif.Props.StateText
import Verif.Props.Stretch
import Verif.Props.Subset
import Verif.Props.TestSpecs
import Verif.QddCanon
import Verif.Queens
import Verif.QueensApp
import Verif.QueensColored
import Verif.QueensColored2
import Verif.QueensColored3
import Verif.QueensProofs
import Verif.QueensProofs2
import Verif.QueensProofs3
import Verif.Ram
import Verif.RandomDd
import Verif.Readers
import Verif.ReadersProofs
import Verif.ReadersSpec
import Verif.ReduceCanon
import Verif.ReduceTheory
import Verif.ReduceTop
import Verif.Reducer
import Verif.ReducerFine
import Verif.ReducerFineProofs1
import Verif.ReducerFineProofs2
import Verif.ReducerFineProofs3
import Verif.ReducerFineProofs4
import Verif.ReducerMP
import Verif.ReducerMPProofs
import Verif.ReducerProofs1
import Verif.ReducerProofs2
import Verif.ReducerProofs3
import Verif.ReducerProofs4
import Verif.ReducerProofs5
import Verif.ReducerProofs6
import Verif.ReducerProofs7
import Verif.ReducerProofs8
import Verif.RunDec
import Verif.SampleDds
import Verif.Samples
import Verif.Sapporo
import Verif.SapporoLib
import Verif.SapporoLibProofs
import Verif.SapporoLibProofs2
import Verif.SapporoLibSpec
import Verif.SapporoProofs
import Verif.Searcher
import Verif.Semantics
import Verif.SemanticsLemmas
import Verif.SetText
import Verif.SizeConstraint
import Verif.SpecInv
import Verif.SpecRun
import Verif.StateStore
import Verif.StateStoreProofs
import Verif.StateText
import Verif.StateTextProofs
import Verif.Stretch
import Verif.StretchProofs
import Verif.Structure
import Verif.StructureProofs
import Verif.SubsetCanon
import Verif.Subsetter
import Verif.SubsetterProofs1
import Verif.SubsetterProofs2
import Verif.SubsetterProofs3
import Verif.TableSem
import Verif.TestSpecs
import Verif.UnreductionProofs
