import Verif.Lemmas.Absolute
import Verif.Lemmas.Affine
import Verif.Lemmas.Angle
import Verif.Lemmas.Arc
import Verif.Lemmas.Bound64
import Verif.Lemmas.Complex
import Verif.Lemmas.Frame
import Verif.Lemmas.Grid
import Verif.Lemmas.Loop
import Verif.Lemmas.Matrix
import Verif.Lemmas.MatrixSq
import Verif.Lemmas.Norms
import Verif.Lemmas.Num64
import Verif.Lemmas.Point
import Verif.Lemmas.QuatPlane
import Verif.Lemmas.Quaternion
import Verif.Lemmas.Relative64
import Verif.Lemmas.Scaled
import Verif.Lemmas.ShortestRotation
import Verif.Lemmas.Transform
import Verif.Lemmas.Vector
import Verif.Model.Actions
import Verif.Model.Angle
import Verif.Model.Approx
import Verif.Model.Complex
import Verif.Model.Constraint
import Verif.Model.Debug
import Verif.Model.Display
import Verif.Model.Euler
import Verif.Model.Float
import Verif.Model.Matrix
import Verif.Model.MatrixSq
import Verif.Model.Numeric
import Verif.Model.Point
import Verif.Model.Prelude
import Verif.Model.Projection
import Verif.Model.Quaternion
import Verif.Model.Special
import Verif.Model.Swizzle
import Verif.Model.Transform
import Verif.Model.Vector
import Verif.Model.Views
import Verif.Props.C01_Dot
import Verif.Props.C02_VectorSpace
import Verif.Props.C03_TryCast
import Verif.Props.C04_Normalize
import Verif.Props.C04_NormalizeAll
import Verif.Props.C05_Unit
import Verif.Props.C05_UnitAll
import Verif.Props.C06_VectorNorms
import Verif.Props.C07_Cross
import Verif.Props.C08_ProjectReflect
import Verif.Props.C09_Lerp
import Verif.Props.C100_ComplexPowers
import Verif.Props.C101_Asinh
import Verif.Props.C101_Hyperbolic
import Verif.Props.C102_QuaternionRoots
import Verif.Props.C103_MatrixInverse
import Verif.Props.C104_WholeNumbers
import Verif.Props.C105_RoundTrips
import Verif.Props.C106_Products
import Verif.Props.C107_Mirrors
import Verif.Props.C108_VectorFunctions
import Verif.Props.C109_Similarities
import Verif.Props.C109_SimilarityInverses
import Verif.Props.C10_MinMax
import Verif.Props.C110_MatrixFunctions
import Verif.Props.C111_QuaternionProducts
import Verif.Props.C112_QuaternionFunctions
import Verif.Props.C113_QuaternionTerms
import Verif.Props.C114_ComplexTerms
import Verif.Props.C11_Homogeneous
import Verif.Props.C12_Points
import Verif.Props.C13_MatMul
import Verif.Props.C14_Transpose
import Verif.Props.C15_Swaps
import Verif.Props.C16_Layout
import Verif.Props.C17_Determinant
import Verif.Props.C18_Inverse
import Verif.Props.C19_Invertible
import Verif.Props.C20_Trace
import Verif.Props.C21_MatrixNorms
import Verif.Props.C22_MatArith
import Verif.Props.C23_Affine
import Verif.Props.C24_Shear
import Verif.Props.C25_Reflection
import Verif.Props.C26_Rotation
import Verif.Props.C27_Embedding
import Verif.Props.C28_LookAt
import Verif.Props.C28_LookAtAll
import Verif.Props.C29_LookInv
import Verif.Props.C29_LookInvAll
import Verif.Props.C30_RotationBetween
import Verif.Props.C30_RotationBetweenAll
import Verif.Props.C31_Axes
import Verif.Props.C31_Orthographic
import Verif.Props.C32_Perspective
import Verif.Props.C33_ProjectPoint
import Verif.Props.C34_ComplexField
import Verif.Props.C35_MixedComplex
import Verif.Props.C36_ComplexPolarExp
import Verif.Props.C37_ComplexPow
import Verif.Props.C38_ComplexTrig
import Verif.Props.C39_QuaternionAlgebra
import Verif.Props.C40_QuaternionInverse
import Verif.Props.C41_QuaternionToMatrix
import Verif.Props.C42_QuaternionFromMatrix
import Verif.Props.C43_QuaternionAxisAngle
import Verif.Props.C44_QuaternionExpLn
import Verif.Props.C45_QuaternionInterpolation
import Verif.Props.C46_QuaternionPolar
import Verif.Props.C47_QuaternionProjection
import Verif.Props.C48_QuaternionTrig
import Verif.Props.C49_Euler
import Verif.Props.C50_AngleNormalize
import Verif.Props.C51_AngleSigned
import Verif.Props.C52_DegRad
import Verif.Props.C53_Translation
import Verif.Props.C54_Rotation
import Verif.Props.C55_RotationAngle
import Verif.Props.C56_Isometry
import Verif.Props.C57_Similarity
import Verif.Props.C58_Scale
import Verif.Props.C59_ShearReflection
import Verif.Props.C60_Transform
import Verif.Props.C61_Approx
import Verif.Props.C62_Scalars
import Verif.Props.C63_Access
import Verif.Props.C64_Swizzle
import Verif.Props.C65_Display
import Verif.Props.C66_FloatLaws
import Verif.Props.C67_Ieee
import Verif.Props.C67_RoundingError
import Verif.Props.C68_MachineIntegers
import Verif.Props.C69_SpecialValues
import Verif.Props.C70_Reports
import Verif.Props.C71_Shapes
import Verif.Props.C72_ComplexPowers
import Verif.Props.C72_ComplexSpecial
import Verif.Props.C73_Actions
import Verif.Props.C74_ComplexLaws
import Verif.Props.C75_QuaternionLaws
import Verif.Props.C76_VectorLaws
import Verif.Props.C77_TransformLaws
import Verif.Props.C78_ProjectionLaws
import Verif.Props.C79_Chains
import Verif.Props.C80_AngleIeee
import Verif.Props.C80_AngleRounding
import Verif.Props.C81_CheckedIntegers
import Verif.Props.C82_BuiltRotations
import Verif.Props.C83_FloatInverse
import Verif.Props.C84_SafeRange
import Verif.Props.C85_Domains
import Verif.Props.C85_Finite
import Verif.Props.C85_Library
import Verif.Props.C86_Histories
import Verif.Props.C87_FloatViews
import Verif.Props.C87_ViewQuaternions
import Verif.Props.C88_Accessors
import Verif.Props.C88_FloatProjection
import Verif.Props.C89_Isometries
import Verif.Props.C90_Homogeneous
import Verif.Props.C91_MatrixQuaternion
import Verif.Props.C91_RoundTrips
import Verif.Props.C92_Interpolation
import Verif.Props.C92_Slerp
import Verif.Props.C92_SlerpUniform
import Verif.Props.C93_Plane
import Verif.Props.C93_RotationBetween
import Verif.Props.C93_Vectors
import Verif.Props.C94_Angles
import Verif.Props.C95_EulerAngles
import Verif.Props.C96_AxisAngle
import Verif.Props.C97_ExpLog
import Verif.Props.C98_ComplexFunctions
import Verif.Props.C99_Perspective
import Verif.Props.C99_Unproject
import Verif.Props.Misc_Core
import Verif.Props.Misc_Quaternion
import Verif.Spec.Checked
import Verif.Spec.FloatAngle
import Verif.Spec.Ieee
import Verif.Spec.Libm
import Verif.Spec.Library64
import Verif.Spec.Norm
import Verif.Spec.Rounding
