import Verif.Model.Fit
import Verif.Spec.Paths
import Verif.Lemmas.Reflect
import Verif.Lemmas.Kernel
import Verif.Lemmas.Linear
import Verif.Spec.Prior
import Verif.Lemmas.Paths
import Verif.Lemmas.FitLin
import Verif.Lemmas.FitMain
import Verif.Props.C01
import Verif.Props.C02
import Verif.Props.C03
import Verif.Props.C04
import Verif.Props.C08
import Verif.Props.C07
import Verif.Props.C10
import Verif.Lemmas.Scale
import Verif.Props.C12
import Verif.Props.C13
import Verif.Lemmas.Prior
import Verif.Props.C15
import Verif.Props.C17
import Verif.Model.Construct
import Verif.Model.HyperParams
import Verif.Spec.Serial
import Verif.Props.C20
import Verif.Lemmas.FitModel
import Verif.Props.C21
import Verif.Spec.HyperParams
import Verif.Lemmas.HyperParams
import Verif.Model.Config
import Verif.Props.C25
import Verif.Props.C26
import Verif.Props.C27
import Verif.Props.C28
import Verif.Lemmas.HyperAvg
import Verif.Props.C29
import Verif.Props.C30
import Verif.Props.C32
import Verif.Model.HyperDist
import Verif.Lemmas.ND
import Verif.Props.C34
import Verif.Model.Changepoint
import Verif.Model.Getters
import Verif.Model.Online
import Verif.Spec.Changepoint
import Verif.Props.C38
import Verif.Props.C28Cell
import Verif.Spec.Online
import Verif.Lemmas.Online
import Verif.Props.C40
import Verif.Props.C41
import Verif.Props.C43
import Verif.Lemmas.OnlineQuery
import Verif.Props.C44
import Verif.Props.C45
import Verif.Model.Parser
import Verif.Model.ParserView
import Verif.Spec.Parser
import Verif.Lemmas.Parser
import Verif.Lemmas.ParserValue
import Verif.Lemmas.ParserIndep
import Verif.Lemmas.ParserTotal
import Verif.Lemmas.ParserLoad
import Verif.Props.C46
import Verif.Props.C47
import Verif.Props.C49
import Verif.Props.C50
import Verif.Props.C55
import Verif.Props.C60
import Verif.Model.Optimize
import Verif.Props.C58
import Verif.Model.Cache
import Verif.Props.C59
import Verif.Model.Likelihood
import Verif.Spec.Density
import Verif.Spec.Jeffreys
import Verif.Spec.Positive
import Verif.Props.C56
import Verif.Props.C57
import Verif.Spec.Predictive
import Verif.Lemmas.Predictive
import Verif.Props.C61
import Verif.Model.LogReal
import Verif.Model.RealExt
import Verif.Model.Study
import Verif.Model.Jeffreys
import Verif.Model.Defaults
import Verif.Lemmas.Study
import Verif.Lemmas.Moments
import Verif.Lemmas.AR
import Verif.Lemmas.Positive
import Verif.Props.C62
import Verif.Props.C63
import Verif.Props.C64
import Verif.Props.C65
import Verif.Props.C66
import Verif.Model.Custom
import Verif.Props.C67
import Verif.Props.C69
import Verif.Props.C70
import Verif.Props.C71
import Verif.Model.Grammar
import Verif.Spec.Grammar
import Verif.Lemmas.Grammar
import Verif.Lemmas.GrammarRound
import Verif.Lemmas.GrammarNum
import Verif.Lemmas.GrammarMain
import Verif.Props.C72
import Verif.Props.C73
import Verif.Props.C74
import Verif.Props.C75
import Verif.Props.C76
import Verif.Props.C77
import Verif.Props.C78
import Verif.Spec.Retime
import Verif.Lemmas.Retime
import Verif.Spec.Idle
import Verif.Props.C79
import Verif.Props.C80
import Verif.Props.C81
import Verif.Props.C82
import Verif.Props.C83
import Verif.Props.C84
import Verif.Props.C85
import Verif.Props.C86
import Verif.Props.C87
import Verif.Props.C88
import Verif.Model.Objects
import Verif.Spec.Objects
import Verif.Lemmas.Objects
import Verif.Lemmas.Sessions
import Verif.Props.C89
import Verif.Props.C90
import Verif.Spec.Continuum
import Verif.Spec.Grids
import Verif.Lemmas.Riemann
import Verif.Lemmas.Mirror
import Verif.Lemmas.GridWalk
import Verif.Lemmas.Continuum
import Verif.Lemmas.ContinuumExists
import Verif.Lemmas.ContinuumUnique
import Verif.Lemmas.Grids
import Verif.Lemmas.GridFit
import Verif.Props.C91
import Verif.Model.Plot
import Verif.Spec.Plot
import Verif.Lemmas.Plot
import Verif.Props.C92
import Verif.Props.C93
import Verif.Props.C95
import Verif.Props.C96
import Verif.Props.C97
import Verif.Spec.Joint
import Verif.Lemmas.Calibration
import Verif.Props.C98
import Verif.Props.C99
import Verif.Props.C100
import Verif.Props.C101
import Verif.Props.C102
import Verif.Props.C103
import Verif.Props.C104
import Verif.Props.C105
import Verif.Props.C106
import Verif.Props.C107
import Verif.Props.C108
import Verif.Props.C109
import Verif.Props.C110
import Verif.Props.C111
import Verif.Props.C112
import Verif.Props.C113
import Verif.Props.C114
import Verif.Props.C115
import Verif.Props.C116
import Verif.Props.C117
import Verif.Props.C118
import Verif.Props.C119
import Verif.Props.C120
import Verif.Props.C121
import Verif.Props.C122
import Verif.Props.C123
import Verif.Props.C124
import Verif.Props.C125
import Verif.Props.C126
import Verif.Props.C127
import Verif.Props.C128
import Verif.Props.C129
import Verif.Props.C130
import Verif.Props.C131
