import Verif.Props.AOS
import Verif.Props.AOSCalls
import Verif.Props.AOSCallsFl
import Verif.Props.AOSCopy
import Verif.Props.AOSFl
import Verif.Props.AOSFull
import Verif.Props.AOSGauss
import Verif.Props.AOSOwn
import Verif.Props.AOSStep
import Verif.Props.BitHeap
import Verif.Props.Box
import Verif.Props.BoxConfig
import Verif.Props.BoxExact
import Verif.Props.BoxFl
import Verif.Props.Calls
import Verif.Props.CallsStop
import Verif.Props.ChaosFl
import Verif.Props.DTLZ
import Verif.Props.DTLZ8
import Verif.Props.DTLZRest
import Verif.Props.DefaultRunFl
import Verif.Props.Encode
import Verif.Props.Extremes
import Verif.Props.Feasible
import Verif.Props.FeasibleInt
import Verif.Props.GA
import Verif.Props.GACopy
import Verif.Props.GAFull
import Verif.Props.GAFull2
import Verif.Props.GAFull3
import Verif.Props.IEEE
import Verif.Props.MBSIter
import Verif.Props.MOCalls
import Verif.Props.MOFeasible
import Verif.Props.MORun
import Verif.Props.MORunFl
import Verif.Props.MatHeap
import Verif.Props.MatView
import Verif.Props.Maths
import Verif.Props.Matrix
import Verif.Props.MultiBitSet
import Verif.Props.NSGA
import Verif.Props.NSGA2Fl
import Verif.Props.NSGA3Fl
import Verif.Props.NSGA3Obj
import Verif.Props.Names
import Verif.Props.NichePick
import Verif.Props.Niching
import Verif.Props.NormScale
import Verif.Props.Omp
import Verif.Props.OpsSize
import Verif.Props.PSO
import Verif.Props.PSOCalls
import Verif.Props.PSOCallsFl
import Verif.Props.PSOFl
import Verif.Props.PSOFull
import Verif.Props.PSOOwn
import Verif.Props.Pareto
import Verif.Props.RefPoints
import Verif.Props.RefPointsFl
import Verif.Props.SOGA
import Verif.Props.SOGACallsFl
import Verif.Props.SOGAFl
import Verif.Props.SOGARun
import Verif.Props.SOPressure
import Verif.Props.SelConfig
import Verif.Props.Session
import Verif.Props.Session2
import Verif.Props.Settings
import Verif.Props.SignGauss
import Verif.Props.TestCont
import Verif.Props.TestFunsFl
import Verif.Props.TestFunsFl2
import Verif.Props.TestFunsFl3
import Verif.Props.TestFunsFl4
import Verif.Props.TestFunsFl5
import Verif.Props.TestFunsFl6
import Verif.Props.TestFunsMO
import Verif.Props.TestFunsMO2
import Verif.Props.TestFunsRange
import Verif.Props.TestFunsSO
import Verif.Props.Traits
