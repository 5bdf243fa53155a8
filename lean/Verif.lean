import Verif.Lemmas.AlloyText
import Verif.Lemmas.Compound
import Verif.Lemmas.CompoundText
import Verif.Lemmas.DataFile
import Verif.Lemmas.Dict
import Verif.Lemmas.Engout
import Verif.Lemmas.KappaVar
import Verif.Lemmas.KappaVarInv
import Verif.Lemmas.Re
import Verif.Lemmas.Re2
import Verif.Lemmas.Romb
import Verif.Lemmas.Split
import Verif.Lemmas.UtilsDict
import Verif.Lemmas.UtilsText
import Verif.Model.AlloyText
import Verif.Model.Anisotro
import Verif.Model.Band
import Verif.Model.BandCfg
import Verif.Model.BandFuncs
import Verif.Model.BandModel
import Verif.Model.BandNest
import Verif.Model.BandRun
import Verif.Model.BandTotal
import Verif.Model.Basic
import Verif.Model.CfgRef
import Verif.Model.CfgText
import Verif.Model.Compound
import Verif.Model.CutRun
import Verif.Model.Dataset
import Verif.Model.Describe
import Verif.Model.DeviceCli
import Verif.Model.DeviceRun
import Verif.Model.DotAccess
import Verif.Model.Elements
import Verif.Model.Engout
import Verif.Model.FormatRun
import Verif.Model.Gpr
import Verif.Model.Instr
import Verif.Model.Interface
import Verif.Model.Interp
import Verif.Model.KappaCfg
import Verif.Model.KappaFit
import Verif.Model.KappaModels
import Verif.Model.KappaRun
import Verif.Model.KappaScat
import Verif.Model.KappaVar
import Verif.Model.KappaWire
import Verif.Model.Mapping
import Verif.Model.Mathext
import Verif.Model.Mixing
import Verif.Model.NumText
import Verif.Model.Re
import Verif.Model.SideBySide
import Verif.Model.Split
import Verif.Model.TableFile
import Verif.Model.TextRuns
import Verif.Model.ToolRuns
import Verif.Model.Utils
import Verif.Model.Ztdev
import Verif.Props.AlloyOdd
import Verif.Props.AlloyText
import Verif.Props.Anisotro
import Verif.Props.BandBuild
import Verif.Props.BandCache
import Verif.Props.BandCfgMain
import Verif.Props.BandCfgSect
import Verif.Props.BandCfgSim
import Verif.Props.BandConduct
import Verif.Props.BandKane
import Verif.Props.BandKaneLevel
import Verif.Props.BandLevel
import Verif.Props.BandLinear
import Verif.Props.BandLorenz
import Verif.Props.BandMirror
import Verif.Props.BandMixed
import Verif.Props.BandModel
import Verif.Props.BandModels
import Verif.Props.BandMulti
import Verif.Props.BandNest
import Verif.Props.BandOpt
import Verif.Props.BandParts
import Verif.Props.BandQuad
import Verif.Props.BandRspb
import Verif.Props.BandRspb2
import Verif.Props.BandRun
import Verif.Props.BandRunDemo
import Verif.Props.BandRunModel
import Verif.Props.BandSubst
import Verif.Props.BandTotal
import Verif.Props.BandUnits
import Verif.Props.CfgRef
import Verif.Props.CfgSubst
import Verif.Props.CfgSubstModel
import Verif.Props.CfgText
import Verif.Props.Compound
import Verif.Props.CutRun
import Verif.Props.DataFile
import Verif.Props.Dataset
import Verif.Props.Describe
import Verif.Props.DeviceCli
import Verif.Props.DeviceMirror
import Verif.Props.DeviceRun
import Verif.Props.DotAccess
import Verif.Props.EngoutBest
import Verif.Props.EngoutCarnot
import Verif.Props.EngoutDoc
import Verif.Props.EngoutFigure
import Verif.Props.EngoutItg
import Verif.Props.EngoutMaterial
import Verif.Props.EngoutPair
import Verif.Props.EngoutShapes
import Verif.Props.EngoutSim
import Verif.Props.FormatRun
import Verif.Props.Gpr
import Verif.Props.Instr
import Verif.Props.InterfaceDerived
import Verif.Props.InterfaceNames
import Verif.Props.InterfaceNum
import Verif.Props.InterfaceText
import Verif.Props.Interp
import Verif.Props.KappaCfgOpt
import Verif.Props.KappaCfgSub
import Verif.Props.KappaCfgSubst
import Verif.Props.KappaCfgVar
import Verif.Props.KappaClassic
import Verif.Props.KappaDebye
import Verif.Props.KappaDisorder
import Verif.Props.KappaFit
import Verif.Props.KappaForeign
import Verif.Props.KappaHeat
import Verif.Props.KappaKlemens
import Verif.Props.KappaKnown
import Verif.Props.KappaMfp
import Verif.Props.KappaRun
import Verif.Props.KappaRunDetail
import Verif.Props.KappaRunOpt
import Verif.Props.KappaRunPred
import Verif.Props.KappaRunSubs
import Verif.Props.KappaScat
import Verif.Props.KappaVar
import Verif.Props.KappaWire
import Verif.Props.Mapping
import Verif.Props.MathFuncs
import Verif.Props.MixRuns
import Verif.Props.Mixing
import Verif.Props.NumFormula
import Verif.Props.NumText
import Verif.Props.SideBySide
import Verif.Props.Split
import Verif.Props.TableFile
import Verif.Props.TextRuns
import Verif.Props.ToolRuns
import Verif.Props.UtilsDict
import Verif.Props.UtilsState
import Verif.Props.UtilsText
import Verif.Props.Ztdev
import Verif.Props.ZtdevConst
import Verif.Props.ZtdevEngout
import Verif.Spec.AlloyText
import Verif.Spec.CfgRef
import Verif.Spec.CfgText
import Verif.Spec.Compound
import Verif.Spec.Dataset
import Verif.Spec.Instr
import Verif.Spec.Kappa
