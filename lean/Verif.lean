import Verif.Props.Linear
import Verif.Props.Newton
import Verif.Props.Integrate
import Verif.Props.Jacobian
import Verif.Props.Adjoint
import Verif.Props.Hardening
import Verif.Props.Flow
import Verif.Props.Models
import Verif.Props.Solvers
import Verif.Props.Interp
import Verif.Props.Control
import Verif.Props.FiniteDiff
import Verif.Props.Temperature
import Verif.Props.Scaling
import Verif.Props.Experiments
import Verif.Props.Tests
import Verif.Props.Histories
import Verif.Props.Mixed
import Verif.Props.Elastic
import Verif.Props.Accuracy
import Verif.Props.Gradient
import Verif.Model.Integrator
import Verif.Props.Integrator
import Verif.Props.Statistics
import Verif.Props.Convergence
import Verif.Model.Sparse
import Verif.Props.Sparse
import Verif.Props.Energy
import Verif.Props.Holds
import Verif.Props.Relaxation
import Verif.Props.Recovery
import Verif.Props.GlobalNewton
import Verif.Model.Tensor
import Verif.Model.TensorMaterial
import Verif.Spec.Tensor
import Verif.Spec.TensorMaterial
import Verif.Props.Tensor
import Verif.Props.TensorVector
import Verif.Model.TensorControl
import Verif.Props.TensorControl
import Verif.Props.Padding
import Verif.Props.NewtonGrad
import Verif.Props.CreepGrad
import Verif.Props.MaterialGrad
import Verif.Props.DamageGrad
import Verif.Model.TensorOde
import Verif.Spec.TensorOde
import Verif.Proofs.TensorFirst
import Verif.Proofs.TensorChunk
import Verif.Proofs.TensorOde
import Verif.Props.TensorOde
import Verif.Model.TensorAdjoint
import Verif.Proofs.TensorAdjoint
import Verif.Props.TensorAdjoint
import Verif.Spec.Sensitivity
import Verif.Proofs.Sensitivity
import Verif.Props.Sensitivity
import Verif.Props.SensitivityForward
import Verif.Props.TensorGrad
import Verif.Props.MixedGrad
import Verif.Props.InexactGrad
import Verif.Model.TensorNeural
import Verif.Spec.TensorNeural
import Verif.Props.TensorNeural
import Verif.Model.Strided
import Verif.Spec.Strided
import Verif.Proofs.Strided
import Verif.Props.Strided
import Verif.Model.Visualize
import Verif.Props.Visualize
import Verif.Spec.Units
import Verif.Proofs.Units
import Verif.Proofs.UnitsMaterial
import Verif.Props.Units
import Verif.Props.SlowStress
import Verif.Proofs.Reindex
import Verif.Spec.Reindex
import Verif.Props.Reindex
import Verif.Proofs.Split
import Verif.Props.Split
import Verif.Props.Monotone
import Verif.Spec.StepTolerance
import Verif.Props.StepTolerance
import Verif.Spec.Mirror
import Verif.Proofs.Mirror
import Verif.Proofs.MirrorMaterial
import Verif.Proofs.MirrorControl
import Verif.Props.Mirror
import Verif.Spec.Renumber
import Verif.Props.Renumber
import Verif.Props.Region
import Verif.Spec.Loss
import Verif.Props.Loss
import Verif.Props.MixedNewton
import Verif.Model.Backprop
import Verif.Proofs.Backprop
import Verif.Proofs.NewtonLimit
import Verif.Proofs.BackpropLimit
import Verif.Props.Backprop
import Verif.Props.BackpropNewton
import Verif.Spec.Inexact
import Verif.Props.Inexact
import Verif.Props.Rounding
import Verif.Props.Robust
import Verif.Spec.Examples
import Verif.Props.ExampleJacobians
import Verif.Props.ExampleRuns
import Verif.Props.Inference
import Verif.Props.RoundTrip
