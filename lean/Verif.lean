import Verif.Lemmas.Asym
import Verif.Lemmas.Bessel
import Verif.Lemmas.Bessel2
import Verif.Lemmas.Bessel3
import Verif.Lemmas.Bessel4
import Verif.Lemmas.Bessel5
import Verif.Lemmas.CallenWelton
import Verif.Lemmas.Circuit
import Verif.Lemmas.CircuitCut
import Verif.Lemmas.CircuitFp
import Verif.Lemmas.CircuitIO
import Verif.Lemmas.CircuitIO2
import Verif.Lemmas.Classical
import Verif.Lemmas.Classical2
import Verif.Lemmas.Classical3
import Verif.Lemmas.CleanData
import Verif.Lemmas.CleanMatrix
import Verif.Lemmas.Continuous
import Verif.Lemmas.Conv
import Verif.Lemmas.Curves
import Verif.Lemmas.Deriv
import Verif.Lemmas.Deriv2
import Verif.Lemmas.Deriv3
import Verif.Lemmas.Energy
import Verif.Lemmas.Energy2
import Verif.Lemmas.Exact
import Verif.Lemmas.ExpData
import Verif.Lemmas.ExponFp
import Verif.Lemmas.Figures
import Verif.Lemmas.Files
import Verif.Lemmas.Float
import Verif.Lemmas.Fourier
import Verif.Lemmas.HarmonicBalance
import Verif.Lemmas.HarmonicBalance2
import Verif.Lemmas.HarmonicBalance3
import Verif.Lemmas.HbPrint
import Verif.Lemmas.HbPrint2
import Verif.Lemmas.HbPrint3
import Verif.Lemmas.HbPrint4
import Verif.Lemmas.IfData
import Verif.Lemmas.IfFp
import Verif.Lemmas.IfNoise
import Verif.Lemmas.Interp
import Verif.Lemmas.IvFit
import Verif.Lemmas.IvLoad
import Verif.Lemmas.IvModels
import Verif.Lemmas.IvPass
import Verif.Lemmas.KkKernel
import Verif.Lemmas.KkLimit
import Verif.Lemmas.KkLimit2
import Verif.Lemmas.KkTrans
import Verif.Lemmas.KkTrapz
import Verif.Lemmas.Limit
import Verif.Lemmas.Limit2
import Verif.Lemmas.Lipschitz
import Verif.Lemmas.LocalInverse
import Verif.Lemmas.MathFn
import Verif.Lemmas.MathFn2
import Verif.Lemmas.Memory
import Verif.Lemmas.Memory2
import Verif.Lemmas.Mtsda
import Verif.Lemmas.MtsdaExtra
import Verif.Lemmas.Newton
import Verif.Lemmas.Newton2
import Verif.Lemmas.NewtonFp
import Verif.Lemmas.NewtonFp2
import Verif.Lemmas.NewtonFp3
import Verif.Lemmas.NumPy
import Verif.Lemmas.Ohm
import Verif.Lemmas.Parametric
import Verif.Lemmas.Phase
import Verif.Lemmas.PhaseMean
import Verif.Lemmas.PrincipalValue
import Verif.Lemmas.PrintInfo
import Verif.Lemmas.Py
import Verif.Lemmas.QtApi
import Verif.Lemmas.QtCurrent
import Verif.Lemmas.QtKernel
import Verif.Lemmas.QtRefine
import Verif.Lemmas.QtTop
import Verif.Lemmas.RelErr
import Verif.Lemmas.Report
import Verif.Lemmas.RespFn
import Verif.Lemmas.RespFn2
import Verif.Lemmas.RespFn3
import Verif.Lemmas.RespGrid
import Verif.Lemmas.RespPrint
import Verif.Lemmas.Results
import Verif.Lemmas.Reversal
import Verif.Lemmas.RoundCount
import Verif.Lemmas.RoundOps
import Verif.Lemmas.Rounding
import Verif.Lemmas.Scale
import Verif.Lemmas.Section
import Verif.Lemmas.Sensitivity
import Verif.Lemmas.ShotPoints
import Verif.Lemmas.SlopeSpan
import Verif.Lemmas.SlopeSpan2
import Verif.Lemmas.Terminal
import Verif.Lemmas.Truncation
import Verif.Lemmas.Truncation2
import Verif.Lemmas.Truncation3
import Verif.Lemmas.TuckerLip
import Verif.Lemmas.Weighted
import Verif.Model.AlphaFp
import Verif.Model.Circuit
import Verif.Model.CircuitFp
import Verif.Model.CircuitIO
import Verif.Model.CleanData
import Verif.Model.DataFp
import Verif.Model.ErrState
import Verif.Model.ExpData
import Verif.Model.ExpFp
import Verif.Model.ExponFp
import Verif.Model.Figures
import Verif.Model.Files
import Verif.Model.FilesPrint
import Verif.Model.FreqFp
import Verif.Model.GaussFp
import Verif.Model.HarmonicBalance
import Verif.Model.HbFp
import Verif.Model.HbFp2
import Verif.Model.HbPrint
import Verif.Model.IfData
import Verif.Model.IfFp
import Verif.Model.IfNoise
import Verif.Model.IfResponse
import Verif.Model.IvData
import Verif.Model.KkFp
import Verif.Model.MathFn
import Verif.Model.Options
import Verif.Model.Overflow
import Verif.Model.PolyFp
import Verif.Model.PolyRange
import Verif.Model.PrintInfo
import Verif.Model.PrintInfoText
import Verif.Model.Pvale
import Verif.Model.QtCurrent
import Verif.Model.QtFreqRound
import Verif.Model.QtPrint
import Verif.Model.QtRound
import Verif.Model.Report
import Verif.Model.RespFn
import Verif.Model.RespPrint
import Verif.Model.Results
import Verif.Model.Session
import Verif.Model.SweepFp
import Verif.Model.Terminal
import Verif.Model.ZembRec
import Verif.Props.Absorb
import Verif.Props.AlphaFp
import Verif.Props.AreaRule
import Verif.Props.Asym
import Verif.Props.CasesIv
import Verif.Props.Circuit
import Verif.Props.CircuitCut
import Verif.Props.CircuitFp
import Verif.Props.CircuitIO
import Verif.Props.Classical
import Verif.Props.CleanData
import Verif.Props.Convergence
import Verif.Props.Conversion
import Verif.Props.ConversionMatrix
import Verif.Props.Curves
import Verif.Props.DataFp
import Verif.Props.DcOnly
import Verif.Props.DriveLevel
import Verif.Props.ErrState
import Verif.Props.ExpData
import Verif.Props.ExpData2
import Verif.Props.ExpData3
import Verif.Props.ExpData4
import Verif.Props.ExpFp
import Verif.Props.ExponFp
import Verif.Props.FigureLimits
import Verif.Props.FigureTexts
import Verif.Props.FigureTexts2
import Verif.Props.Figures
import Verif.Props.Figures2
import Verif.Props.Figures3
import Verif.Props.Figures4
import Verif.Props.Figures5
import Verif.Props.Figures6
import Verif.Props.Figures7
import Verif.Props.Figures8
import Verif.Props.Files
import Verif.Props.Files2
import Verif.Props.FilesPrint
import Verif.Props.Filters
import Verif.Props.FreqFp
import Verif.Props.FreqRound
import Verif.Props.GapVoltage
import Verif.Props.GaussFp
import Verif.Props.HarmonicBalance
import Verif.Props.HarmonicBalance2
import Verif.Props.HbFp
import Verif.Props.HbFp2
import Verif.Props.HbPrint
import Verif.Props.HbPrint2
import Verif.Props.HbPrint3
import Verif.Props.HbPrint4
import Verif.Props.IfData
import Verif.Props.IfFp
import Verif.Props.IfNoise
import Verif.Props.IfNoise2
import Verif.Props.IfNoise3
import Verif.Props.IfNoise4
import Verif.Props.IfResponse
import Verif.Props.IfSeries
import Verif.Props.IvData
import Verif.Props.IvData2
import Verif.Props.IvData3
import Verif.Props.IvData4
import Verif.Props.IvData5
import Verif.Props.IvData6
import Verif.Props.IvSeries
import Verif.Props.KkFp
import Verif.Props.KkNoise
import Verif.Props.KkRate
import Verif.Props.KkTrans
import Verif.Props.Limit
import Verif.Props.MathFn
import Verif.Props.MaxPower
import Verif.Props.NoisyFit
import Verif.Props.NoisyGap
import Verif.Props.NoisyOffset
import Verif.Props.NoisyReceiver
import Verif.Props.NoisyRecovery
import Verif.Props.Normal
import Verif.Props.Odd
import Verif.Props.OffsetSearch
import Verif.Props.OptionValues
import Verif.Props.Options
import Verif.Props.Overflow
import Verif.Props.PhotonBalance
import Verif.Props.PolyFp
import Verif.Props.PolyRange
import Verif.Props.PrintInfo
import Verif.Props.PrintInfoText
import Verif.Props.Pvale
import Verif.Props.QtCurrent
import Verif.Props.QtPrint
import Verif.Props.Quadrature
import Verif.Props.Recovery
import Verif.Props.Regular
import Verif.Props.Repeat
import Verif.Props.Report
import Verif.Props.Report2
import Verif.Props.Report3
import Verif.Props.RespFig
import Verif.Props.RespFn
import Verif.Props.RespFn2
import Verif.Props.RespFnSteps
import Verif.Props.RespOdd
import Verif.Props.RespPrint
import Verif.Props.Results
import Verif.Props.Results2
import Verif.Props.Results3
import Verif.Props.Rounding
import Verif.Props.Sensitivity
import Verif.Props.SeparateTone
import Verif.Props.SeriesObject
import Verif.Props.Session
import Verif.Props.ShotPoints
import Verif.Props.ShotWarning
import Verif.Props.SignalAdmittance
import Verif.Props.Smear
import Verif.Props.Smear2
import Verif.Props.Smooth
import Verif.Props.SmoothCurrent
import Verif.Props.SourceDependence
import Verif.Props.Stable
import Verif.Props.Steps
import Verif.Props.StopTest
import Verif.Props.SweepFp
import Verif.Props.SymmetricAverage
import Verif.Props.Symmetry
import Verif.Props.Terminal
import Verif.Props.TimeDomain
import Verif.Props.Tol
import Verif.Props.Truncation
import Verif.Props.Truncation2
import Verif.Props.Tucker
import Verif.Props.ValueLines
import Verif.Props.WeakDrive
import Verif.Props.Witnesses
import Verif.Props.Witnesses2
import Verif.Props.Witnesses3
import Verif.Props.Zemb
import Verif.Props.ZembRec
import Verif.Py.Basic
import Verif.Py.Bessel
import Verif.Py.Float
import Verif.Py.NumPy
import Verif.Spec.Binary64
import Verif.Spec.Circuit
import Verif.Spec.Classical
import Verif.Spec.Constants
import Verif.Spec.Convergence
import Verif.Spec.Curves
import Verif.Spec.Figures
import Verif.Spec.Files
import Verif.Spec.Filters
import Verif.Spec.HarmonicBalance
import Verif.Spec.HbPrint
import Verif.Spec.Inverse
import Verif.Spec.KramersKronig
import Verif.Spec.Memory
import Verif.Spec.Mtsda
import Verif.Spec.Phase
import Verif.Spec.PhotonWork
import Verif.Spec.PrintInfo
import Verif.Spec.Report
import Verif.Spec.RespPrint
import Verif.Spec.ShotPoints
import Verif.Spec.Smear
import Verif.Spec.Table
import Verif.Spec.Terminal
import Verif.Spec.Truncation
