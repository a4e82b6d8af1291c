import Verif.CB.Props
import Verif.CB.PropsHuge
import Verif.CB.PropsPlace
import Verif.CB.PropsLaws
import Verif.CB.PropsDebug
import Verif.CB.PropsUninit
import Verif.CB.PropsConstruct
import Verif.CB.PropsCost
import Verif.Itv.Props
import Verif.Itv.PropsArith
import Verif.Itv.PropsAlgebra
import Verif.Itv.PropsOrder
import Verif.Itv.PropsContract
import Verif.Itv.PropsCollect
import Verif.Itv.PropsChain
import Verif.Itv.PropsHash
import Verif.Itv.PropsCmp
import Verif.Itv.PropsKey
import Verif.Cnt.Props
import Verif.Cnt.PropsAlgebra
import Verif.Cnt.SpecMultiset
import Verif.Cnt.LemmasMultiset
import Verif.Cnt.PropsMultiset
import Verif.Cnt.PropsShards
import Verif.Cnt.PropsGrowth
import Verif.Cnt.PropsPanic
import Verif.Cnt.PropsProgram
import Verif.Cnt.PropsWrap
import Verif.Cnt.PropsKey
import Verif.DS.Props
import Verif.DS.PropsCost
import Verif.DS.PropsDeep
import Verif.DS.PropsLocal
import Verif.DS.PropsGhost
import Verif.DS.PropsWild
import Verif.Cnt.PropsWild
import Verif.Itv.PropsWild
import Verif.DS.PropsAlike
import Verif.DS.PropsKey
import Verif.Cnt.PropsCost
import Verif.Itv.PropsDebug
import Verif.Cnt.PropsDebug
import Verif.DS.PropsDebug
import Verif.CB.CrateTests
import Verif.Itv.CrateTests
import Verif.Cnt.CrateTests
import Verif.DS.CrateTests
import Verif.Map.Memory
import Verif.Cnt.ModelMem
import Verif.Cnt.SpecMem
import Verif.Cnt.LemmasMem
import Verif.Cnt.PropsMem
import Verif.DS.ModelMem
import Verif.DS.SpecMem
import Verif.DS.LemmasMem
import Verif.DS.PropsMem
import Verif.DS.PropsSpare
import Verif.Itv.PropsPretty
import Verif.Cnt.PropsPretty
import Verif.Itv.SpecFold
import Verif.Itv.LemmasFold
import Verif.Itv.PropsFold
import Verif.Itv.SpecTable
import Verif.Itv.LemmasTable
import Verif.Itv.PropsTable
import Verif.Itv.SpecSchedule
import Verif.Itv.LemmasSchedule
import Verif.Itv.PropsSchedule
import Verif.Cnt.ModelRehash
import Verif.Cnt.SpecRehash
import Verif.Cnt.LemmasRehash
import Verif.Cnt.PropsRehash
import Verif.DS.PropsPretty
import Verif.CB.PropsPaid
import Verif.DS.PropsForest
import Verif.DS.SpecParity
import Verif.DS.LemmasParity
import Verif.DS.PropsParity
import Verif.DS.PropsGrowth
import Verif.DS.ModelMemIter
import Verif.DS.LemmasMemIter
import Verif.DS.PropsMemIter
import Verif.Client.PropsWindow
import Verif.Client.SpecCluster
import Verif.Client.LemmasCluster
import Verif.Client.PropsCluster
import Verif.Client.SpecMax
import Verif.Client.LemmasMax
import Verif.Client.PropsMax
import Verif.DS.Sharp
import Verif.DS.PropsSharp
import Verif.Itv.SpecSet
import Verif.Itv.LemmasSet
import Verif.Itv.PropsSet
import Verif.Client.SpecAnagram
import Verif.Client.PropsAnagram
import Verif.Client.SpecBfs
import Verif.Client.LemmasBfs
import Verif.Client.PropsBfs
import Verif.DS.PropsBottleneck
import Verif.Cnt.PropsMemOut
import Verif.CB.SpecQueue
import Verif.CB.PropsQueue
import Verif.CB.ModelIter
import Verif.CB.SpecIter
import Verif.CB.PropsIter
import Verif.CB.ModelSlices
import Verif.CB.LemmasSlices
import Verif.CB.PropsSlices
import Verif.CB.SpecWorld
import Verif.CB.LemmasWorld
import Verif.CB.PropsWorld
import Verif.Itv.ModelClamp
import Verif.Itv.PropsClamp
import Verif.CB.SpecTurn
import Verif.CB.PropsTurn
import Verif.CB.ModelOrd
import Verif.CB.PropsOrd
import Verif.DS.SpecLattice
import Verif.DS.PropsLattice
import Verif.DS.ModelRehash
import Verif.DS.PropsRehash
import Verif.Rust.FmtFlags
import Verif.Itv.ModelFlags
import Verif.Itv.PropsFlags
import Verif.Cnt.ModelFlags
import Verif.Cnt.PropsFlags
import Verif.DS.ModelFlags
import Verif.DS.PropsFlags
import Verif.CB.ModelRefs
import Verif.CB.SpecRefs
import Verif.CB.LemmasRefs
import Verif.CB.PropsRefs
import Verif.Itv.LemmasPrecede
import Verif.Itv.PropsPrecede
import Verif.Itv.SpecCover
import Verif.Itv.LemmasCover
import Verif.Itv.PropsCover
import Verif.Client.SpecRate
import Verif.Client.LemmasRate
import Verif.Client.PropsRate
import Verif.DS.SpecEquality
import Verif.DS.LemmasEquality
import Verif.DS.PropsEquality
import Verif.Client.SpecUndo
import Verif.Client.LemmasUndo
import Verif.Client.PropsUndo
import Verif.Cnt.SpecDistance
import Verif.Cnt.LemmasDistance
import Verif.Cnt.PropsDistance
import Verif.DS.SpecAutomata
import Verif.DS.LemmasAutomata
import Verif.DS.PropsAutomata
import Verif.Client.SpecBroadcast
import Verif.Client.LemmasBroadcast
import Verif.Client.PropsBroadcast
import Verif.Client.SpecRobin
import Verif.Client.LemmasRobin
import Verif.Client.PropsRobin
import Verif.DS.SpecCuts
import Verif.DS.LemmasCuts
import Verif.DS.PropsCuts
import Verif.Client.SpecRecent
import Verif.Client.LemmasRecent
import Verif.Client.PropsRecent
import Verif.Itv.SpecNarrow
import Verif.Itv.LemmasNarrow
import Verif.Itv.PropsNarrow
import Verif.Cnt.SpecStock
import Verif.Cnt.LemmasStock
import Verif.Cnt.PropsStock
import Verif.Cnt.SpecFrequent
import Verif.Cnt.LemmasFrequent
import Verif.Cnt.PropsFrequent
import Verif.Client.SpecOrder
import Verif.Client.LemmasOrder
import Verif.Client.PropsOrder
import Verif.Client.SpecRadix
import Verif.Client.LemmasRadix
import Verif.Client.PropsRadix
import Verif.DS.SpecCluster
import Verif.DS.LemmasCluster
import Verif.DS.PropsCluster
import Verif.DS.SpecCongruence
import Verif.DS.LemmasCongruence
import Verif.DS.PropsCongruence
import Verif.Client.SpecMatch
import Verif.Client.LemmasMatch
import Verif.Client.PropsMatch
import Verif.Client.SpecLocks
import Verif.Client.LemmasLocks
import Verif.Client.PropsLocks
import Verif.Client.SpecOnce
import Verif.Client.LemmasOnce
import Verif.Client.PropsOnce
import Verif.Client.SpecDelay
import Verif.Client.LemmasDelay
import Verif.Client.PropsDelay
