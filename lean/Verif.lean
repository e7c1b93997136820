import Verif.Bits.Props
import Verif.Serial.Props
import Verif.BV.Props
import Verif.Calc.Props
import Verif.Succ.Props
import Verif.Fit.Props
import Verif.Mult.Props
import Verif.Mult.PropsTyped
import Verif.Mult.PropsRestricted
import Verif.MBit.Props
import Verif.MBit.PropsWide
import Verif.Dac.Props
import Verif.Wave.Props
import Verif.IArr.Props
import Verif.Heap.Props
import Verif.Heap.PropsInt
import Verif.Heap.PropsSmall
import Verif.Hash.Props
import Verif.PM.Props
import Verif.FO.Props
import Verif.Trie.Props
import Verif.SA.Props
import Verif.Samc.Props
import Verif.Samc.AssertBuild
import Verif.Samc.PropsAssert
import Verif.CHT.PropsErase
import Verif.CHT.PropsSafe
import Verif.CHT.Total
import Verif.CHT.PropsTotal
import Verif.CHT.Print
import Verif.CHT.PropsPrint
import Verif.CDRW.Props
import Verif.Fit.PropsIter
import Verif.Bits.PropsVec
import Verif.Bits.PropsClz
import Verif.Dac.PropsIter
import Verif.PM.PropsCost
import Verif.PM.PropsCost2
import Verif.PM.Tables
import Verif.PM.PropsTables
import Verif.PM.PropsReturn
import Verif.Serial.Canon
import Verif.Serial.PropsCanon
import Verif.Serial.PropsCut
import Verif.Serial.Short
import Verif.Serial.PropsShort
import Verif.Mult.PropsInto
import Verif.Wave.PropsInto
import Verif.Serial.PropsInto
import Verif.Trie.PropsOrder
import Verif.Serial.PropsForged
import Verif.Wave.PropsBuildCost
import Verif.MBit.PropsBuildCost
import Verif.Dac.PropsBuildCost
import Verif.SA.PropsCost
import Verif.SA.Time
import Verif.SA.TimeLemmas
import Verif.SA.PropsTime
import Verif.Calc.PropsOpt
import Verif.Succ.PropsSpace
import Verif.Succ.PropsInv
import Verif.Dac.PropsSpace
import Verif.SA.PropsAccess
import Verif.SA.PropsAny
import Verif.SA.PropsFind
import Verif.SA.PropsRepeat
import Verif.SA.PropsIff
import Verif.SA.Swapped
import Verif.SA.Order
import Verif.SA.Swap
import Verif.SA.PropsSwap
import Verif.Bits.PropsSel
import Verif.Succ.PropsSel
import Verif.Succ.Cost
import Verif.Succ.PropsCost
import Verif.CDRW.PropsVec
import Verif.CDRW.PropsAmort
import Verif.CDRW.Safe
import Verif.CDRW.PropsSafe
import Verif.CDRW.Fresh
import Verif.CDRW.PropsSparse
import Verif.CDRW.PropsSpace
import Verif.CDRW.PropsTime
import Verif.Same.Props
import Verif.CHT.PropsQuiet
import Verif.Heap.PropsCost
import Verif.FO.PropsCount
import Verif.Wave.PropsSpace
import Verif.Wave.Reads
import Verif.Wave.PropsReads
import Verif.Log.Props
import Verif.SA.PropsReport
import Verif.FO.PropsTurbo
import Verif.FO.PropsAgree
import Verif.FO.Cost
import Verif.FO.CostLemmas
import Verif.FO.PropsCost
import Verif.FO.CostBuild
import Verif.FO.CostBuildLemmas
import Verif.FO.CostBuildExact
import Verif.FO.PropsCostBuild
import Verif.FO.Bounded
import Verif.FO.PropsBounded
import Verif.Dac.PropsStatus
import Verif.Samc.PropsShifts
import Verif.Samc.PropsAccess
import Verif.Samc.Fits
import Verif.Samc.PropsFits
import Verif.Samc.First
import Verif.Samc.PropsSet
import Verif.BV.PropsFile
import Verif.Fit.PropsFile
import Verif.Fit.PropsWide
import Verif.Fit.PropsInt
import Verif.Wave.PropsInt
import Verif.Dac.PropsInt
import Verif.IArr.PropsAssert
import Verif.CDRW.PropsAssert
import Verif.CDRW.PropsAssertVec
import Verif.Wave.PropsAssert
import Verif.FO.PropsAssert
import Verif.Mult.PropsAssert
import Verif.Samc.Reads
import Verif.Samc.PropsReads
import Verif.IArr.Count
import Verif.Samc.Cost
import Verif.Samc.CostBuild
import Verif.Samc.PropsCost
import Verif.Samc.PropsSpace
import Verif.Samc.PropsAgree
import Verif.FO.PropsMiss
import Verif.IArr.PropsCost
import Verif.CHT.PropsRoom
import Verif.CHT.Cost
import Verif.CHT.PropsCost
import Verif.CHT.Amort
import Verif.CHT.PropsAmort
import Verif.Trie.PropsEnds
import Verif.Trie.Narrow
import Verif.Trie.PropsNarrow
import Verif.Trie.Cost
import Verif.Trie.PropsCost
