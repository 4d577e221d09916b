import Verif.Spec
import Verif.Model.Machine
import Verif.Model.Tables
import Verif.Model.Node
import Verif.Model.Tree
import Verif.Model.Word
import Verif.Model.Block
import Verif.Model.Bitmap
import Verif.Model.Usage
import Verif.Proofs.Mem
import Verif.Proofs.NodeBasic
import Verif.Proofs.NodeUpdate
import Verif.Proofs.NodeSearch
import Verif.Proofs.NodeBuild
import Verif.Proofs.TreeRep
import Verif.Proofs.TreeBuild
import Verif.Proofs.TreeInv
import Verif.Proofs.LevelBuild
import Verif.Proofs.Avx2
import Verif.Proofs.Avx512
import Verif.Proofs.Avx2Build
import Verif.Proofs.Avx512Build
import Verif.Proofs.WordBasic
import Verif.Proofs.WordSum
import Verif.Proofs.WordSelect
import Verif.Proofs.WordSelect2
import Verif.Proofs.WordLane
import Verif.Proofs.BlockRank
import Verif.Proofs.BlockSelect
import Verif.Proofs.TreeFam
import Verif.Proofs.Align
import Verif.Proofs.BitmapInv
import Verif.Proofs.BitmapSpec
import Verif.Proofs.History
import Verif.Proofs.TreeSpec
import Verif.Props.Bitmap
import Verif.Proofs.NodeSpec
import Verif.Proofs.Height
import Verif.Props.Tree
import Verif.Proofs.SearchBad
import Verif.Props.Words
import Verif.Proofs.SelectBad
import Verif.Props.Density
import Verif.Props.Rebuild
import Verif.Proofs.Release
import Verif.Proofs.Debug
import Verif.Props.Debug
import Verif.Proofs.Strict
import Verif.Proofs.Misaligned
import Verif.Props.Align
import Verif.Model.Util
import Verif.Proofs.Util
import Verif.Props.Util
import Verif.Props.Tables
import Verif.Model.Names
import Verif.Props.Names
import Verif.Props.Space
import Verif.Model.Copy
import Verif.Model.Sharing
import Verif.Proofs.Copy
import Verif.Proofs.Mixed
import Verif.Props.Copy
import Verif.Model.Threads
import Verif.Proofs.Threads
import Verif.Proofs.Interleave
import Verif.Proofs.Race
import Verif.Props.Threads
import Verif.SpecTree
import Verif.Model.Hft.Common
import Verif.Model.Hft.Trees
import Verif.Proofs.Hft.Arith
import Verif.Proofs.Hft.Fenwick
import Verif.Proofs.Hft.Build
import Verif.Proofs.Hft.Bits
import Verif.Proofs.Hft.Layout
import Verif.Proofs.Hft.ClassF
import Verif.Proofs.Hft.ClassBitF
import Verif.Proofs.Hft.ClassL
import Verif.Proofs.Hft.ClassTypeL
import Verif.Proofs.Hft.Objects
import Verif.Proofs.Hft.Limits
import Verif.Props.HftTrees
import Verif.Props.TypeLFind
import Verif.Props.TypeLPast
import Verif.Model.Hft.Hybrid
import Verif.Proofs.Hft.Blocks
import Verif.Proofs.Hft.Hybrid
import Verif.Props.HftHybrid
import Verif.SpecPoppy
import Verif.Model.Poppy
import Verif.Proofs.Poppy.Word
import Verif.Proofs.Poppy.Build
import Verif.Proofs.Poppy.Query
import Verif.Props.Poppy
import Verif.Props.PoppyLater
import Verif.SpecStream
import Verif.Model.Hft.Serial
import Verif.Proofs.Hft.Serial
import Verif.Proofs.Hft.SerialObj
import Verif.Proofs.Hft.SerialCut
import Verif.Proofs.Hft.SerialMisc
import Verif.Props.HftStream
import Verif.SpecText
import Verif.Model.Mranisz.Tables
import Verif.Model.Mranisz.Rank
import Verif.Proofs.Mranisz.Text
import Verif.Proofs.Mranisz.Pass
import Verif.Proofs.Mranisz.Basic
import Verif.Proofs.Mranisz.CF
import Verif.Proofs.Mranisz.Link
import Verif.Props.Mranisz
import Verif.Model.Mranisz.Select
import Verif.Proofs.Mranisz.Sel
import Verif.Proofs.Mranisz.SelBuild
import Verif.Proofs.Mranisz.SelLoop
import Verif.Proofs.Mranisz.SelTop
import Verif.Proofs.Mranisz.SelQuery
import Verif.Proofs.Mranisz.SelStd
import Verif.Proofs.Mranisz.SelBch
import Verif.Proofs.Mranisz.SelLink
import Verif.Props.MraniszSelect
import Verif.Model.Mranisz.File
import Verif.Proofs.Mranisz.FileIO
import Verif.Proofs.Mranisz.FileRank
import Verif.Proofs.Mranisz.FileSel
import Verif.Props.MraniszFile
import Verif.Model.Mranisz.Mpe
import Verif.Proofs.Mranisz.MpeText
import Verif.Proofs.Mranisz.MpeBuild
import Verif.Proofs.Mranisz.MpeEncode
import Verif.Proofs.Mranisz.MpeSuper
import Verif.Proofs.Mranisz.MpePlace
import Verif.Proofs.Mranisz.MpeQuery
import Verif.Proofs.Mranisz.MpeRank
import Verif.Proofs.Mranisz.MpeLink
import Verif.Model.Mranisz.MpeFile
import Verif.Proofs.Mranisz.MpeFile
import Verif.Props.MraniszMpe
import Verif.Model.Mranisz.SelMpe
import Verif.Proofs.Mranisz.SelMpeText
import Verif.Proofs.Mranisz.SelMpeWalk
import Verif.Proofs.Mranisz.SelMpePlan
import Verif.Proofs.Mranisz.SelMpeEnc
import Verif.Proofs.Mranisz.SelMpeLoop
import Verif.Proofs.Mranisz.SelMpeTop
import Verif.Proofs.Mranisz.SelMpeSuper
import Verif.Proofs.Mranisz.SelMpePlace
import Verif.Proofs.Mranisz.SelMpeQuery
import Verif.Proofs.Mranisz.SelMpeLink
import Verif.Props.MraniszSelMpe
import Verif.Model.Mranisz.Rank32
import Verif.Model.Mranisz.File32
import Verif.Proofs.Mranisz.Pass32
import Verif.Proofs.Mranisz.Basic32
import Verif.Proofs.Mranisz.HPass
import Verif.Proofs.Mranisz.CF32
import Verif.Proofs.Mranisz.File32
import Verif.Proofs.Mranisz.Wrap32
import Verif.Props.MraniszRank32
import Verif.Model.Mranisz.Select32
import Verif.Model.Mranisz.FileSel32
import Verif.Proofs.Mranisz.S32Build
import Verif.Proofs.Mranisz.S32Loop
import Verif.Proofs.Mranisz.S32Top
import Verif.Proofs.Mranisz.S32Std
import Verif.Proofs.Mranisz.S32Bch
import Verif.Proofs.Mranisz.S32File
import Verif.Props.MraniszSelect32
import Verif.Model.Mranisz.Mpe32
import Verif.Model.Mranisz.MpeFile32
import Verif.Proofs.Mranisz.Mpe32Build
import Verif.Proofs.Mranisz.Mpe32Super
import Verif.Proofs.Mranisz.Mpe32Place
import Verif.Proofs.Mranisz.Mpe32Rank
import Verif.Proofs.Mranisz.Mpe32File
import Verif.Props.MraniszMpe32
import Verif.Model.Mranisz.SelMpe32
import Verif.Proofs.Mranisz.S32mEnc
import Verif.Proofs.Mranisz.S32mLoop
import Verif.Proofs.Mranisz.S32mSuper
import Verif.Proofs.Mranisz.S32mPlace
import Verif.Proofs.Mranisz.S32mQuery
import Verif.Proofs.Mranisz.S32mLink
import Verif.Props.MraniszSelMpe32
import Verif.Model.Mranisz.Threads
import Verif.Proofs.Mranisz.Threads
import Verif.Proofs.Mranisz.Interleave
import Verif.Proofs.Mranisz.Collide
import Verif.Props.MraniszThreads
import Verif.Model.Mranisz.Life
import Verif.Model.Mranisz.Classes
import Verif.Proofs.Mranisz.Life
import Verif.Props.MraniszLife
import Verif.Model.Mranisz.Check
import Verif.Proofs.Mranisz.Check
import Verif.Props.MraniszCheck
import Verif.Props.MraniszCheck32
import Verif.Model.Tests
import Verif.Proofs.Tests
import Verif.Props.Tests
import Verif.Model.TestBlocks
import Verif.Proofs.TestBlocks
import Verif.Props.TestBlocks
import Verif.Model.TestTrees
import Verif.Proofs.TestTrees
import Verif.Props.TestTrees
import Verif.Model.Bench
import Verif.Proofs.Bench
import Verif.Props.Bench
import Verif.Model.BenchStructs
import Verif.Proofs.BenchStructs
import Verif.Props.BenchStructs
import Verif.Proofs.TreeShape
import Verif.Proofs.BenchTrees
import Verif.Props.BenchTrees
import Verif.Props.BenchMod
import Verif.Props.TreeAny
import Verif.SpecNet
import Verif.Proofs.TreeCong
import Verif.Proofs.TreeCongUpdate
import Verif.Proofs.TreeCongRep
import Verif.Proofs.TreeLoose
import Verif.Proofs.TreeMod
import Verif.Props.TreeNet
import Verif.Model.BenchCompressed
import Verif.Props.BenchComp
