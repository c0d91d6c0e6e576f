import Verif.Props.Safety
import Verif.Props.Query
import Verif.Props.Reset
import Verif.Props.Stream
import Verif.Props.Exact
import Verif.Props.Gain
import Verif.Props.Energy
import Verif.Props.Ringing
import Verif.Props.Rounding
import Verif.Props.AlignedArray
import Verif.Props.Flush
import Verif.Props.Freq
import Verif.Props.Hiir
import Verif.Props.IirFreq
import Verif.Props.Designer
import Verif.Props.DesignerRange
import Verif.Props.Delay
import Verif.Props.DelayBand
import Verif.Props.DesignTables
import Verif.Props.SelfTest
import Verif.Props.Threshold
import Verif.Props.Contract
import Verif.Props.ContractIir
import Verif.Props.IirFreq32
import Verif.Props.InPlaceApi
import Verif.Props.IirPeak
import Verif.Props.SseDrift
import Verif.Props.PeakFalse
import Verif.Props.CascadeRest
import Verif.Props.SseLinear
import Verif.Props.Silence
import Verif.Props.Recovery
import Verif.Props.FirDesign
import Verif.Props.Double
import Verif.Props.RoundTrip
import Verif.Props.OverTest
import Verif.Props.MultiDelay
import Verif.Props.Shared
import Verif.Props.Polarity
import Verif.Props.Level
import Verif.Props.Lifetime
import Verif.Props.Overshoot
import Verif.Props.TestArgs
import Verif.Props.TestHarness
import Verif.Props.TestCheck
import Verif.Props.TestPrograms
import Verif.Props.Saturate
import Verif.Props.TestDelay
import Verif.Props.ExactContract
import Verif.Props.Ratio
import Verif.Props.SaturateBounds
import Verif.Props.Power
import Verif.Props.Lossless
import Verif.Props.AllPassTrip
import Verif.Props.SplitEnergy
import Verif.Props.Onto
import Verif.Props.Reverse
import Verif.Props.Integral
import Verif.Props.Atoi
import Verif.Props.IntegralFir
import Verif.Props.Reciprocity
import Verif.Props.Noble
import Verif.Props.Fnc
import Verif.Props.TestSpectrum
import Verif.Props.TestSaw
import Verif.Props.TestFreqs
import Verif.Props.Ieee
import Verif.Props.FlushSame
