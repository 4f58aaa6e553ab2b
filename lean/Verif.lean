import Verif.RangeCoder.Props
import Verif.QsModel.Props
import Verif.Blocks.Props
import Verif.Blocks.Size
import Verif.Blocks.Calls
import Verif.Bits.Props
import Verif.BaseMesh.Props
import Verif.Stream.Props
import Verif.Quant.Props
import Verif.Lod.Props
import Verif.Traversal.Props
import Verif.Boxes.Props
import Verif.Octree.Props
import Verif.Octree.Weight
import Verif.SortPart.Props
import Verif.SortPart.Sizes
import Verif.Tile.Props
import Verif.Tile.AddRaw
import Verif.Tile.Crash
import Verif.Voxels.Props
import Verif.Join.Props
import Verif.Join.Packing
import Verif.Kernels.Props
import Verif.Kernels.TriProps
import Verif.Kernels.Coplanar
import Verif.Conc.JoinQueue
import Verif.Conc.TileLife
import Verif.Conc.Report
import Verif.Conc.Repro
import Verif.Conc.Tokens
import Verif.Conc.Voxels
import Verif.Conc.Compress
import Verif.Conc.CompressMain
import Verif.Conc.Retrieve
import Verif.Util.Lods
import Verif.Util.Tokenize
import Verif.Codec.Props
import Verif.Gpu.DistSeq
import Verif.Gpu.Inter
import Verif.EndToEnd.Intersect
import Verif.EndToEnd.IntersectEx
import Verif.EndToEnd.Distance
import Verif.EndToEnd.Nearest
import Verif.EndToEnd.NearestEx
import Verif.EndToEnd.Within
import Verif.EndToEnd.WithinEx
import Verif.EndToEnd.Threads
import Verif.EndToEnd.CounterNN
import Verif.Fill.Compose
import Verif.Fill.Arrays
import Verif.RTree.Props
import Verif.RTree.Examples
import Verif.Pipeline.Model
import Verif.Pipeline.Mono
import Verif.Pipeline.Props
import Verif.Pipeline.Examples
import Verif.Pipeline.OneShot
import Verif.Pipeline.Skeleton
import Verif.Pipeline.Capacity
import Verif.Pipeline.Overflow
import Verif.Pipeline.NoLevels
import Verif.Codec.Manifold
import Verif.Codec.Convex
import Verif.Codec.Removed
import Verif.Codec.RemovedProps
import Verif.EndToEnd.Aabb
import Verif.EndToEnd.AabbProps
import Verif.Conc.Generator
import Verif.Gen.Model
import Verif.Gen.Props
import Verif.Gen.Final
import Verif.Gen.SelfJoin
import Verif.Gen.SelfJoinEx
import Verif.Fixer.Model
import Verif.Fixer.Depart
import Verif.Fixer.Holes
import Verif.Fixer.Evaluate
import Verif.Fixer.Fill
import Verif.Fixer.Main
import Verif.Kernels.TriExact
import Verif.Kernels.Arrays
import Verif.Kernels.SegExact
import Verif.Pipeline.Wkt
import Verif.Frenet.Props
import Verif.Tools.GetMesh
import Verif.Tools.Cube
import Verif.Tools.Partitioner
import Verif.Tools.Names
import Verif.Measures.Model
import Verif.Measures.Basic
import Verif.Measures.Props
import Verif.Measures.Surface
import Verif.Measures.Laplacian
import Verif.Measures.Examples
import Verif.Codec.Asserts
import Verif.Codec.AssertsDec
import Verif.Codec.AssertsProps
import Verif.Codec.Erased
import Verif.EndToEnd.FromFiles
import Verif.EndToEnd.FromFilesEx
import Verif.EndToEnd.FromFilesNN
import Verif.EndToEnd.FromFilesNNEx
import Verif.TriDist.Model
import Verif.TriDist.Geom
import Verif.TriDist.Face
import Verif.TriDist.Descent
import Verif.TriDist.Exact
import Verif.TriDist.Props
import Verif.TriDist.Examples
import Verif.Tools.Adjust
import Verif.Voxels.Session
import Verif.Pipeline.OffText
import Verif.Tools.H5
import Verif.Pipeline.DecompressTool
import Verif.Tools.GetBoxes
import Verif.Util.ListFiles
