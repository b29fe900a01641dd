import Verif.Props.Boxes
import Verif.Props.Coords1
import Verif.Props.Coords2
import Verif.Props.Coords3
import Verif.Props.Manhattan
import Verif.Props.Interp
import Verif.Props.Interp2
import Verif.Props.Polygons
import Verif.Props.Recover
import Verif.Props.Heatmaps
import Verif.Props.KpImage
import Verif.Props.Batch
import Verif.Props.Normalize
import Verif.Props.Normalize2
import Verif.Props.Prefetch
import Verif.Props.Pool
import Verif.Props.Imap
import Verif.Props.Background
import Verif.Props.Meta
import Verif.Props.Meta2
import Verif.Props.Tree
import Verif.Props.Tree2
import Verif.Props.Channels
import Verif.Props.AssertShape
import Verif.Props.Augment
import Verif.Props.Flip
import Verif.Props.Rot90
import Verif.Props.Jigsaw
import Verif.Props.Size
import Verif.Props.Size2
import Verif.Props.Size3
import Verif.Props.Dtypes
import Verif.Props.Pooling
import Verif.Props.Grid
import Verif.Props.Params
import Verif.Props.Params2
import Verif.Props.Handle
import Verif.Props.Lut
import Verif.Props.TempSeed
import Verif.Props.Lines
import Verif.Props.Invert
import Verif.Props.AddMul
import Verif.Props.Cutout
import Verif.Props.Blend
import Verif.Props.BlendAug
import Verif.Props.Affine
import Verif.Props.AffineFit
import Verif.Props.MaskGen
import Verif.Props.Resize
import Verif.Props.KeepSize
import Verif.Props.MulElem
import Verif.Props.Dropout
import Verif.Props.WrapPrefetch
import Verif.Props.Quantize
import Verif.Props.Contrast
import Verif.Props.Equalize
import Verif.Props.Color
import Verif.Props.Hue
import Verif.Props.Segments
import Verif.Props.Points
import Verif.Props.Replace
import Verif.Props.Conv
import Verif.Props.Blur
import Verif.Props.Noise
import Verif.Props.Rng
import Verif.Props.Perspective
import Verif.Props.Loader
import Verif.Props.Extract
import Verif.Props.Lambda
import Verif.Props.Elastic
import Verif.Props.Intensity
import Verif.Props.PoolAug
import Verif.Props.Batches
import Verif.Props.NormRings
import Verif.Props.CropArgs
import Verif.Props.Positions
import Verif.Props.NormMaps
import Verif.Props.AffineArgs
import Verif.Props.Piecewise
import Verif.Props.ResizeArgs
import Verif.Props.Temperature
import Verif.Props.JigsawBatch
import Verif.Props.ScalarBatch
import Verif.Props.Polar
import Verif.Props.AffineBatch
import Verif.Props.AffineCv2
import Verif.Props.PointArrays
import Verif.Props.Canny
import Verif.Props.RandAugment
import Verif.Props.PolyClip
import Verif.Props.Draw
import Verif.Props.AffineBatchFit
import Verif.Props.PilAffine
import Verif.Props.DrawMaps
import Verif.Props.Similar
import Verif.Props.Pad
import Verif.Props.CropBatch
import Verif.Props.Weather
import Verif.Props.Compress
import Verif.Props.Corrupt
import Verif.Props.Cartoon
import Verif.Props.Isect
import Verif.Props.Build
import Verif.Props.Debug
import Verif.Props.Quokka
import Verif.Props.Simplex
import Verif.Props.DrawLines
import Verif.Props.Label
import Verif.Props.Enhance
import Verif.Props.ExtractShapes
import Verif.Props.Cv2Args
import Verif.Props.MulHue
import Verif.Props.BatchCopy
import Verif.Props.NoiseMask
import Verif.Props.AugGrid
import Verif.Props.AddElem
import Verif.Props.OrdTree
