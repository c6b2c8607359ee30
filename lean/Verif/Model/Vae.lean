import Verif.Model.NetOut
import Verif.Model.Offline

/-! Model of the loss of the variational autoencoder in BCQ, tianshou/policy/imitation/bcq.py lines 163-168. Numbers are real
numbers. The step of the optimiser is not modelled here. -/

namespace Verif.NetOut

/-- The first lines of `BCQPolicy.learn`, `bcq.py` lines 163-168. `rows`: observation and action of each transition of the batch;
`randn`: the random numbers drawn by the call of the `VAE`, a row for each transition. `F.mse_loss` and `.mean()` are means over
all entries. -/
noncomputable def Vae.loss (v : Vae) (rows : List (List ℝ × List ℝ)) (randn : List (List ℝ)) : ℝ :=
  let out := List.zipWith (fun r n => v.forward r.1 r.2 n) rows randn
  let recon := Offline.mean2 (List.zipWith (fun r o => List.zipWith (fun a b => (a - b) ^ 2) r.2 o.1) rows out)
  let kl := Offline.mean2 (out.map fun o =>
    List.zipWith (fun m s => -Real.log s + (s ^ 2 + m ^ 2 - 1) / 2) o.2.1 o.2.2)
  recon + kl / 2

end Verif.NetOut
