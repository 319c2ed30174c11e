import Verif.Props.C01_C02_Options
import Verif.Props.C03_C20_C21_C23_Entry
import Verif.Props.C04_C05_Bounds
import Verif.Props.C06_C08_Eval
import Verif.Props.C47_Status
import Verif.Props.C48_InitSet
import Verif.Props.C22_C38_C41_Optimality
import Verif.Props.C24_C27_InterpSet
import Verif.Props.C31_C32_Bfgs
import Verif.Props.C33_C52_Convex
import Verif.Props.C28_C30_TruncCG
import Verif.Props.C34_C35_C53_Poly
import Verif.Props.C36_C37_Interp
import Verif.Props.C39_C40_Multiplier
import Verif.Model.Main
import Verif.Lemmas.Main
import Verif.Lemmas.MainImprove
import Verif.Lemmas.MainStep
import Verif.Lemmas.MainPass
import Verif.Lemmas.MainStart
import Verif.Lemmas.MainOutcome
import Verif.Lemmas.MainBefore
import Verif.Lemmas.MainExample
import Verif.Props.C09_C11_Budget
import Verif.Props.C12_C16_Results
import Verif.Props.C17_C19_Step
import Verif.Model.Blls
import Verif.Props.C45_C59_Blls
import Verif.Model.QuadMin
import Verif.Props.C46_C60_QuadMin
import Verif.Lemmas.Spectral
import Verif.Model.TRMS
import Verif.Props.C42_C61_TRMS
import Verif.Model.NewYj
import Verif.Props.C54_C62_NewYj
import Verif.Props.C63_CGFinite
import Verif.Lemmas.MainCe
import Verif.Props.C55_C58_C64_Runs
import Verif.Props.C65_Simplex
import Verif.Model.TRMSbc
import Verif.Props.C43_C66_TRMSbc
import Verif.Model.SolveTR
import Verif.Props.C44_C67_SolveTR
import Verif.Props.C68_C70_SolveTR
import Verif.Lemmas.MainLog
import Verif.Props.C71_Linear
import Verif.Props.C50_Evaluated
import Verif.Lemmas.MainGrad
import Verif.Props.C72_Gradients
import Verif.Props.C73_GradientError
import Verif.Model.Kernels
import Verif.Props.C74_Certificate
import Verif.Model.WhichModel
import Verif.Lemmas.QRExists
import Verif.Props.C75_Kinds
import Verif.Model.Hessian
import Verif.Props.C76_C77_Hessian
import Verif.Model.Ldl
import Verif.Props.C78_Ldl
import Verif.Model.Minq
import Verif.Props.C79_Minq
import Verif.Model.Whole
import Verif.Lemmas.WholeSetup
import Verif.Props.C80_OptionReads
import Verif.Props.C81_Whole
import Verif.Spec.Step
import Verif.Lemmas.StepDetail
import Verif.Props.C82_C84_StepDetail
import Verif.Props.C85_C86_Restoration
import Verif.Props.C87_HardCase
import Verif.Props.C88_BllsDescent
import Verif.Props.C89_C91_BoundedStep
import Verif.Props.C92_History
import Verif.Props.C93_Subspace
import Verif.Props.C80_InitialCall
import Verif.Props.C94_C95_StartPoint
import Verif.Props.C96_Tangent
import Verif.Props.C97_Flag
import Verif.Props.C88_Backtrack
import Verif.Props.C98_C99_Causal
import Verif.Props.C100_NotWorse
import Verif.Props.C101_Shift
import Verif.Props.C102_Constant
import Verif.Props.C103_Cured
import Verif.Props.C104_Poised
import Verif.Props.C105_C106_Runtime
import Verif.Props.C107_Status0
import Verif.Props.C108_Multipliers
import Verif.Props.C109_Limits
import Verif.Props.C110_Repeated
import Verif.Props.C111_Successful
import Verif.Props.C112_Cauchy
import Verif.Props.C113_Complexity
import Verif.Props.C114_Merit
import Verif.Props.C115_Forward
import Verif.Props.C16_Info
import Verif.Props.C116_Order
import Verif.Props.C117_Norm
import Verif.Spec.Translate
import Verif.Lemmas.MainTranslate
import Verif.Lemmas.SolveTRMove
import Verif.Props.C118_Translate
import Verif.Spec.Rename
import Verif.Props.C119_Variables
import Verif.Props.C120_Tolerances
import Verif.Spec.Signs
import Verif.Lemmas.MainSigns
import Verif.Props.C121_Signs
import Verif.Model.Compare
import Verif.Props.C122_Compare
import Verif.Spec.Mirror
import Verif.Props.C123_Mirror
import Verif.Model.Report
import Verif.Props.C124_Report
import Verif.Props.C125_AffineConstraints
import Verif.Props.C126_Homotopy
import Verif.Props.C127_Multiplier
