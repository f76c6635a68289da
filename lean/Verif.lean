import Verif.Base
import Verif.Chernoff
import Verif.Data.Lemmas
import Verif.Data.Model
import Verif.Data.PropsData
import Verif.Data.PropsFile
import Verif.Disp.CausalLemmas
import Verif.Disp.CausalSpec
import Verif.Disp.CausalUnique
import Verif.Disp.Fractions
import Verif.Disp.GaussLemmas
import Verif.Disp.InterpLemmas
import Verif.Disp.KK
import Verif.Disp.MaterialData
import Verif.Disp.Materials
import Verif.Disp.Model
import Verif.Disp.NpInterp
import Verif.Disp.OscLemmas
import Verif.Disp.PropsCausal
import Verif.Disp.PropsGauss
import Verif.Disp.PropsIdentify
import Verif.Disp.PropsKK
import Verif.Disp.PropsKKBetween
import Verif.Disp.PropsMaterials
import Verif.Disp.PropsOrder
import Verif.Disp.PropsOsc
import Verif.Disp.PropsRIFile
import Verif.Disp.PropsRoundGauss
import Verif.Disp.PropsRoundIndex
import Verif.Disp.PropsSampled
import Verif.Disp.PropsStatic
import Verif.Disp.PropsSum
import Verif.Disp.PropsTable
import Verif.Disp.PropsTransparent
import Verif.Disp.PropsUser
import Verif.Disp.RIFile
import Verif.Disp.RoundAt
import Verif.Disp.RoundGauss
import Verif.Disp.RoundMat
import Verif.Disp.RoundMix
import Verif.Disp.RoundOps
import Verif.Disp.RoundTauc
import Verif.Disp.Rounded
import Verif.Disp.SampledSpec
import Verif.Disp.Spec
import Verif.Disp.User
import Verif.EMA.Lemmas
import Verif.EMA.Model
import Verif.EMA.PropsContinuity
import Verif.EMA.PropsEMA
import Verif.EMA.PropsFactor
import Verif.EMA.PropsFraction
import Verif.EMA.PropsRules
import Verif.EMA.RealLemmas
import Verif.EMA.Spec
import Verif.LinODE
import Verif.Near
import Verif.Obj.Central
import Verif.Obj.CovarModel
import Verif.Obj.Labelled
import Verif.Obj.Lemmas
import Verif.Obj.Model
import Verif.Obj.NaN
import Verif.Obj.PlotLemmas
import Verif.Obj.PlotModel
import Verif.Obj.PrintModel
import Verif.Obj.PropsArgs
import Verif.Obj.PropsBest
import Verif.Obj.PropsBounded
import Verif.Obj.PropsConsistent
import Verif.Obj.PropsCovar
import Verif.Obj.PropsDetermined
import Verif.Obj.PropsErrorBars
import Verif.Obj.PropsExact
import Verif.Obj.PropsFold
import Verif.Obj.PropsHist
import Verif.Obj.PropsLabelled
import Verif.Obj.PropsLik
import Verif.Obj.PropsLocal
import Verif.Obj.PropsMisfit
import Verif.Obj.PropsNaN
import Verif.Obj.PropsNoise
import Verif.Obj.PropsPeak
import Verif.Obj.PropsPerfect
import Verif.Obj.PropsPlot
import Verif.Obj.PropsPoints
import Verif.Obj.PropsPrint
import Verif.Obj.PropsProbable
import Verif.Obj.PropsProper
import Verif.Obj.PropsProperPrior
import Verif.Obj.PropsRandom
import Verif.Obj.PropsRecover
import Verif.Obj.PropsRecoverAbsorb
import Verif.Obj.PropsRecoverLorentz
import Verif.Obj.PropsRecoverResonance
import Verif.Obj.PropsRecoverSellmeier
import Verif.Obj.PropsRecoverSubstrate
import Verif.Obj.PropsResid
import Verif.Obj.PropsRoundFit
import Verif.Obj.PropsSensitivity
import Verif.Obj.PropsSim
import Verif.Obj.PropsSmallErrors
import Verif.Obj.PropsState
import Verif.Obj.PropsSubstrate
import Verif.Obj.PropsSubstrateNoise
import Verif.Obj.PropsWeights
import Verif.Params.Model
import Verif.Params.PropsCall
import Verif.Params.PropsParams
import Verif.Params.PropsRoles
import Verif.Parse.Handles
import Verif.Parse.LemmasEP4
import Verif.Parse.LemmasText
import Verif.Parse.Model
import Verif.Parse.PropsEP4
import Verif.Parse.PropsEP4Names
import Verif.Parse.PropsFilmSense
import Verif.Parse.PropsHandles
import Verif.Parse.PropsHoriba
import Verif.Parse.PropsM2000
import Verif.Parse.SpecEP4
import Verif.RModel.AlikeSpec
import Verif.RModel.Lemmas
import Verif.RModel.Model
import Verif.RModel.PropsAlike
import Verif.RModel.PropsEndToEnd
import Verif.RModel.PropsModel
import Verif.RModel.PropsReverse
import Verif.RModel.PropsThreads
import Verif.RModel.Threads
import Verif.Repr.Model
import Verif.Repr.PropsRepr
import Verif.Struct.BuildLemmas
import Verif.Struct.ListOps
import Verif.Struct.Model
import Verif.Struct.PropsBuild
import Verif.Struct.PropsList
import Verif.Struct.PropsNan
import Verif.Struct.PropsProfile
import Verif.Struct.PropsSlabs
import Verif.Struct.SlabLemmas
import Verif.Struct.Spec
import Verif.TMM.ArrayLemmas
import Verif.TMM.ArrayModel
import Verif.TMM.BareSens
import Verif.TMM.Bloch
import Verif.TMM.BlochSpec
import Verif.TMM.BlochStack
import Verif.TMM.Branch
import Verif.TMM.Bridge
import Verif.TMM.DPLemmas
import Verif.TMM.Drude
import Verif.TMM.ExFilm
import Verif.TMM.FieldLemmas
import Verif.TMM.Flux
import Verif.TMM.Graded
import Verif.TMM.GradedLimit
import Verif.TMM.GradedSpec
import Verif.TMM.LayeredLimit
import Verif.TMM.LayeredSpec
import Verif.TMM.Lemmas
import Verif.TMM.Model
import Verif.TMM.ObsError
import Verif.TMM.Passive
import Verif.TMM.PhysLemmas
import Verif.TMM.PropsAbsorb
import Verif.TMM.PropsArray
import Verif.TMM.PropsBare
import Verif.TMM.PropsBloch
import Verif.TMM.PropsClip
import Verif.TMM.PropsCoating
import Verif.TMM.PropsCont
import Verif.TMM.PropsContClip
import Verif.TMM.PropsDrude
import Verif.TMM.PropsEnergy
import Verif.TMM.PropsGraded
import Verif.TMM.PropsGradedMid
import Verif.TMM.PropsLayered
import Verif.TMM.PropsLayeredOblique
import Verif.TMM.PropsMaxwell
import Verif.TMM.PropsObs
import Verif.TMM.PropsRange
import Verif.TMM.PropsRoundStack
import Verif.TMM.PropsRounded
import Verif.TMM.PropsSampledObs
import Verif.TMM.PropsScreen
import Verif.TMM.PropsSides
import Verif.TMM.PropsSign
import Verif.TMM.PropsSmooth
import Verif.TMM.PropsStack
import Verif.TMM.PropsSym
import Verif.TMM.PropsThick
import Verif.TMM.PropsThickness
import Verif.TMM.PropsThicknessMany
import Verif.TMM.PropsTotal
import Verif.TMM.Range
import Verif.TMM.RoundLemmas
import Verif.TMM.Rounded
import Verif.TMM.Smooth
import Verif.TMM.Spec
import Verif.TMM.Turn
import Verif.Axioms
