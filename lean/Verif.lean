import Verif.Props.Chunk
import Verif.Props.StrideTricks
import Verif.Props.Dist
import Verif.Props.LshapeCache
import Verif.Props.Resplit
import Verif.Props.Indexing
import Verif.Props.Halo
import Verif.Props.Reduce
import Verif.Props.BinaryOp
import Verif.Props.Types
import Verif.Props.Mpi
import Verif.Props.Random
import Verif.Props.Exchange
import Verif.Props.Factories
import Verif.Props.ND
import Verif.Props.Datatype
import Verif.Props.Reshape
import Verif.Props.Diag
import Verif.Props.Partition
import Verif.Props.Arg
import Verif.Props.Sort
import Verif.Props.Concat
import Verif.Props.Moments
import Verif.Props.Counting
import Verif.Props.Outer
import Verif.Props.LinAlg
import Verif.Props.Distance
import Verif.Props.Gauss
import Verif.Props.Matmul
import Verif.Props.Matvec
import Verif.Props.Csv
import Verif.Props.Diff
import Verif.Props.Sparse
import Verif.Props.Unique
import Verif.Props.Topk
import Verif.Props.Hdf5
import Verif.Props.Hdf5Save
import Verif.Props.SaveCsv
import Verif.Props.Pad
import Verif.Props.Convolve
import Verif.Props.Percentile
import Verif.Props.Naive
import Verif.Props.NaivePredict
import Verif.Props.Compare
import Verif.Props.Split
import Verif.Props.Tile
import Verif.Props.Repeat
import Verif.Props.Unfold
import Verif.Props.KCluster
import Verif.Props.Lasso
import Verif.Props.Scaler
import Verif.Props.Plateau
import Verif.Props.Daso
import Verif.Props.DasoPack
import Verif.Props.DataParallel
import Verif.Props.Dataset
import Verif.Props.Sampler
import Verif.Props.Qr
import Verif.Props.QrReal
import Verif.Props.QrCols
import Verif.Props.QrColsReal
import Verif.Props.QrRows
import Verif.Props.QrRowsReal
import Verif.Props.SolveTri
import Verif.Props.Cg
import Verif.Props.Lanczos
import Verif.Props.Solve
import Verif.Props.Fft
import Verif.Props.Fftn
import Verif.Props.Hsvd
import Verif.Props.Svd
import Verif.Props.Isvd
import Verif.Props.Pca
import Verif.Props.Pds
import Verif.Props.Printing
import Verif.Props.BatchCluster
import Verif.Props.SetValue
import Verif.Props.Knn
import Verif.Props.Ptp
import Verif.Props.Laplacian
import Verif.Props.Silhouette
import Verif.Props.OutOp
import Verif.Props.Cov
import Verif.Props.KcInit
import Verif.Props.CommAxis
import Verif.Props.ManyFiles
import Verif.Props.Eigh
import Verif.Props.Polar
import Verif.Props.Norm
import Verif.Props.Average
import Verif.Props.Convolve2
import Verif.Props.Rot90
import Verif.Props.StackVec
import Verif.Props.BroadcastND
import Verif.Props.MeshCross
import Verif.Props.NetCdf
import Verif.Props.LocalOp
import Verif.Props.Vmap
import Verif.Props.ReduceND
import Verif.Props.CumND
import Verif.Props.Memory
import Verif.Props.Dmd
import Verif.Props.SplitTiles
import Verif.Props.Rsvd
import Verif.Props.Spectral
import Verif.Props.Params
import Verif.Props.ReduceMem
import Verif.Props.LikeFactory
import Verif.Props.DataSets
import Verif.Props.Gallery
import Verif.Props.ArrayApi
import Verif.Props.SquareTiles
import Verif.Props.Rounding
import Verif.Props.Randperm
import Verif.Props.Condest
import Verif.Props.StdVdot
import Verif.Props.SvdGeneral
import Verif.Props.KFit
import Verif.Props.NanReduce
import Verif.Props.QrInPlace
import Verif.Props.Alias
import Verif.Props.IoDispatch
import Verif.Props.RollMulti
import Verif.Props.SplitOther
import Verif.Props.KnnFit
import Verif.Props.CrossAxes
import Verif.Props.Requests
import Verif.Props.DerivedOp
import Verif.Props.AlltoallStage
