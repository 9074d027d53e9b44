import Verif.Props.Util
import Verif.Props.DmConstraints
import Verif.Props.Dm
import Verif.Props.DmSurf
import Verif.Props.Prop
import Verif.Props.CtrlEfc
import Verif.Props.CtrlAd
import Verif.Props.CtrlSearch
import Verif.Props.CtrlState
import Verif.Props.CtrlPack
import Verif.Props.Jac
import Verif.Props.Compact
import Verif.Props.JacDeriv
import Verif.Props.Vortex
import Verif.Props.NoFpm
import Verif.Props.FullModel
import Verif.Props.Grad
import Verif.Props.EstProbe
import Verif.Props.Est
import Verif.Props.Spectral
import Verif.Props.Modes
import Verif.Props.Crop
import Verif.Props.Region
import Verif.Props.Imaging
import Verif.Props.Loop
import Verif.Props.Config
import Verif.Props.Hlc
import Verif.Props.Hex
import Verif.Props.ThinFilm
import Verif.Props.Proper
import Verif.Props.ProperShift
import Verif.Props.Norm
import Verif.Props.Noll
import Verif.Props.NollOrtho
import Verif.Props.NollText
import Verif.Props.ProperState
import Verif.Props.ProbeShape
import Verif.Props.DiffDm
import Verif.Props.Expected
import Verif.Props.Source
import Verif.Props.ZernSens
import Verif.Props.Annular
import Verif.Props.ZernMap
import Verif.Props.Energy
import Verif.Props.Thput
import Verif.Props.Cull
import Verif.Props.Ellipse
import Verif.Props.Masks
import Verif.Props.VortexMft
import Verif.Props.Rectangle
import Verif.Props.GenEllipse
import Verif.Props.PupilSimple
import Verif.Props.Detector
import Verif.Props.DetectorNoise
import Verif.Props.Defaults5
import Verif.Props.JacFiles
import Verif.Props.Cubic
import Verif.Props.Szoom
import Verif.Props.ErrorMap
import Verif.Props.Downsample
import Verif.Props.VortexMask
import Verif.Props.Polygon
import Verif.Props.Polygon2
import Verif.Props.FocalCoords
import Verif.Props.DmTilt
import Verif.Props.DmTilt2
import Verif.Props.DmTilt3
import Verif.Model.DmStats
import Verif.Props.DmStats
import Verif.Model.SurfFit
import Verif.Props.SurfFit
import Verif.Props.SurfFit2
import Verif.Model.PsdMap
import Verif.Props.PsdMap
import Verif.Props.PsdMap2
import Verif.Model.Run
import Verif.Props.Run
import Verif.Props.RunMulti
import Verif.Model.Yaml
import Verif.Props.Yaml
import Verif.Model.FieldOps
import Verif.Props.FieldOps
import Verif.Model.HexZernike
import Verif.Props.HexZernike
import Verif.Props.HexMap
import Verif.Model.HexWave
import Verif.Props.HexWave
import Verif.Props.HexWave2
import Verif.Props.HexWave3
import Verif.Props.NollCut
import Verif.Model.FitZern
import Verif.Props.FitZern
import Verif.Model.Mask8
import Verif.Props.Mask8
import Verif.Model.Pixellate
import Verif.Props.Pixellate
import Verif.Model.RoundRect
import Verif.Props.RoundRect
import Verif.Model.WriteMap
import Verif.Props.WriteMap
import Verif.Model.PropDm
import Verif.Props.PropDm
import Verif.Props.FitDm
import Verif.Model.HexDraw
import Verif.Props.HexDraw
import Verif.Model.HlcSurf
import Verif.Model.HlcCos
import Verif.Props.HlcSurf
import Verif.Props.HlcCos
import Verif.Model.Luvoir
import Verif.Props.Luvoir
import Verif.Props.Luvoir2
import Verif.Model.CustomHex
import Verif.Props.CustomHex
import Verif.Model.Options
import Verif.Props.Options
import Verif.Model.SetupDm
import Verif.Props.SetupDm
import Verif.Model.Bowtie
import Verif.Props.Polygon3
import Verif.Props.Bowtie
import Verif.Model.Interrupt
import Verif.Props.Interrupt
import Verif.Model.SimpleMap
import Verif.Props.SimpleMap
import Verif.Model.FilmFiles
import Verif.Props.FilmFiles
import Verif.Model.Caches
import Verif.Props.Caches
import Verif.Model.FftLib
import Verif.Props.FftLib
import Verif.Model.RomanPupil
import Verif.Props.RomanPupil
import Verif.Model.Occulter
import Verif.Props.Occulter
import Verif.Model.BowtieLyot
import Verif.Props.BowtieLyot
import Verif.Model.DeltaField
import Verif.Props.DeltaField
import Verif.Model.ModeSpectrum
import Verif.Props.ModeSpectrum
import Verif.Model.ProbeRecord
import Verif.Props.ProbeRecord
import Verif.Model.DeepCopy
import Verif.Props.DeepCopy
import Verif.Model.Snippet
import Verif.Props.Snippet
import Verif.Model.ProperTable
import Verif.Props.ProperTable
import Verif.Model.MklFft
import Verif.Props.MklFft
import Verif.Model.ConfigMerge
import Verif.Props.ConfigMerge
import Verif.Props.Talbot
import Verif.Props.Polar
