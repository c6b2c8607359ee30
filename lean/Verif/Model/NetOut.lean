import Verif.Model.Net
import Mathlib.Analysis.Complex.Trigonometric
import Mathlib.Analysis.SpecialFunctions.Trigonometric.Basic
import Mathlib.Analysis.Real.Sqrt
import Mathlib.Data.Real.Sign

/-!
Model of the outputs of the networks in `tianshou/utils/net/continuous.py` and `tianshou/utils/net/discrete.py`, over the reals, of
`tianshou/utils/space_info.py` and `tianshou/utils/torch_utils.py`.

Rows are lists. Networks inside are arbitrary functions on rows (a linear layer, a normalisation over features or an activation treats the
rows of a batch one by one). Random numbers are arguments.
-/

namespace Verif.NetOut

open Verif.Net (chunk)

/-! ### Bounded outputs -/

/-- `torch.clamp`. -/
noncomputable def clamp (lo hi x : ℝ) : ℝ := min (max x lo) hi

/-- `max_action * torch.tanh(x)`: the last lines of `Actor.forward` (`continuous.py` line 85), `ActorProb.forward` (line 252),
`RecurrentActorProb.forward` (line 338) and `VAE.decode` (line 529). -/
noncomputable def squash (maxAction : ℝ) (x : List ℝ) : List ℝ := x.map fun x => maxAction * Real.tanh x

/-- The scale: from a network, or a parameter. -/
inductive Sigma
  | conditioned (raw : List ℝ)
  | param (p : List ℝ)

/-- The last lines of `ActorProb.forward` (`continuous.py` lines 250-259) and `RecurrentActorProb.forward` (lines 336-344) for one row:
`mu` and `sigma` raw are the outputs of the networks. `SIGMA_MIN`, `SIGMA_MAX`: lines 20-21. -/
noncomputable def probOut (unbounded : Bool) (maxAction : ℝ) (mu : List ℝ) (s : Sigma) : List ℝ × List ℝ :=
  let mu := if unbounded then mu else squash maxAction mu
  let sigma := match s with
    | .conditioned raw => raw.map fun x => Real.exp (clamp (-20) 2 x)
    | .param p => List.zipWith (fun p m => Real.exp (p + 0 * m)) p mu
  (mu, sigma)

/-- `Perturbation.forward` for one row, `continuous.py` lines 443-448. -/
noncomputable def perturb (net : List ℝ → List ℝ) (maxAction phi : ℝ) (state action : List ℝ) : List ℝ :=
  List.zipWith (fun l a => clamp (-maxAction) maxAction (phi * maxAction * Real.tanh l + a)) (net (state ++ action)) action

/-- The networks in a `VAE`, `continuous.py` lines 476-493. -/
structure Vae where
  encoder : List ℝ → List ℝ
  mean : List ℝ → List ℝ
  logStd : List ℝ → List ℝ
  decoder : List ℝ → List ℝ
  maxAction : ℝ

/-- `VAE.decode` for one row, `continuous.py` lines 514-529; `randn`: the random numbers that are clipped if no latent vector is given. -/
noncomputable def Vae.decode (v : Vae) (state : List ℝ) (latent : Option (List ℝ)) (randn : List ℝ) : List ℝ :=
  let z := match latent with
    | some z => z
    | none => randn.map (clamp (-(1/2)) (1/2))
  squash v.maxAction (v.decoder (state ++ z))

/-- `VAE.forward` for one row, `continuous.py` lines 495-512. -/
noncomputable def Vae.forward (v : Vae) (state action : List ℝ) (randn : List ℝ) : List ℝ × List ℝ × List ℝ :=
  let z := v.encoder (state ++ action)
  let mean := v.mean z
  let std := (v.logStd z).map fun x => Real.exp (clamp (-4) 15 x)
  let latent := List.zipWith (fun m se => m + se) mean (List.zipWith (· * ·) std randn)
  (v.decode state (some latent) [], mean, std)

/-- `F.softmax(x, dim=-1)`, the last line of the discrete `Actor.forward` (`discrete.py` lines 78-79), and the probabilities of
`Categorical(logits=x)` (line 243). -/
noncomputable def softmax (x : List ℝ) : List ℝ := x.map fun y => Real.exp y / (x.map Real.exp).sum

/-! ### Quantile networks -/

/-- `CosineEmbeddingNetwork.forward`, `discrete.py` lines 142-158, for `taus` with rows of the length `n`; `net` treats the rows of the
matrix with a row for each pair of an observation and a fraction. -/
noncomputable def embed (numCosines : Nat) (net : List ℝ → List ℝ) (n : Nat) (taus : List (List ℝ)) : List (List (List ℝ)) :=
  let rows := taus.flatten.map fun t => (List.range numCosines).map fun i : Nat => Real.cos (t * (Real.pi * ((i : ℝ) + 1)))
  chunk n taus.length (rows.map net)

/-- `transpose(1, 2)` for one element of the batch, whose rows have the length `d`. -/
def swap (d : Nat) (m : List (List ℝ)) : List (List ℝ) := (List.range d).map fun a => m.map fun r => r.getD a 0

/-- `FullQuantileFunction._compute_quantiles`, `discrete.py` lines 292-295, and the same lines in `ImplicitQuantileNetwork.forward`, lines
209-214; `actions`: output size of `last`. -/
noncomputable def quantiles (numCosines : Nat) (net last : List ℝ → List ℝ) (actions n : Nat) (logits taus : List (List ℝ)) :
    List (List (List ℝ)) :=
  let embedding := (List.zipWith (fun l e => e.map fun r => List.zipWith (· * ·) l r) logits (embed numCosines net n taus)).flatten
  (chunk n taus.length (embedding.map last)).map (swap actions)

/-- `torch.cumsum` from `s`. -/
def cumsum (s : ℝ) : List ℝ → List ℝ
  | [] => []
  | x :: xs => (s + x) :: cumsum (s + x) xs

/-- `FractionProposalNetwork.forward` for one row, `discrete.py` lines 242-249, without the entropies: `taus` and `tau_hats`. -/
noncomputable def propose (net : List ℝ → List ℝ) (x : List ℝ) : List ℝ × List ℝ :=
  let taus := 0 :: cumsum 0 (softmax (net x))
  (taus, List.zipWith (fun a b => (a + b) / 2) taus.dropLast taus.tail)

/-- `FullQuantileFunction.forward`, `discrete.py` lines 304-318, after `preprocess`: quantiles, fractions and the quantiles at the inner
fractions. `n`: number of fractions. -/
noncomputable def fqf (numCosines : Nat) (net last : List ℝ → List ℝ) (actions n : Nat) (proposeNet : List ℝ → List ℝ)
    (fractions : Option (List (List ℝ × List ℝ))) (training : Bool) (logits : List (List ℝ)) :
    List (List (List ℝ)) × List (List ℝ × List ℝ) × Option (List (List (List ℝ))) :=
  let fr := match fractions with
    | some f => f
    | none => logits.map (propose proposeNet)
  (quantiles numCosines net last actions n logits (fr.map (·.2)), fr,
    if training then some (quantiles numCosines net last actions (n - 1) logits (fr.map fun f => f.1.tail.dropLast)) else none)

/-! ### Noisy layers -/

/-- `NoisyLinear`, `discrete.py` lines 334-357. -/
structure Noisy (K : Type) where
  muW : List (List K)
  sigmaW : List (List K)
  muBias : List K
  sigmaBias : List K
  epsP : List K
  epsQ : List K

section
variable {K : Type} [CommRing K]

/-- Inner product. -/
def dot (a b : List K) : K := (List.zipWith (· * ·) a b).sum

/-- `F.linear` for one row. -/
def linear (w : List (List K)) (b : List K) (x : List K) : List K := List.zipWith (fun r b => dot x r + b) w b

/-- `NoisyLinear.forward` for one row, `discrete.py` lines 369-378. -/
def Noisy.forward (l : Noisy K) (training : Bool) (x : List K) : List K :=
  if training then
    let ger := l.epsQ.map fun q => l.epsP.map fun p => q * p
    let weight := List.zipWith (List.zipWith (· + ·)) l.muW (List.zipWith (List.zipWith (· * ·)) l.sigmaW ger)
    let bias := List.zipWith (· + ·) l.muBias (List.zipWith (· * ·) l.sigmaBias l.epsQ)
    linear weight bias x
  else linear l.muW l.muBias x

end

/-- `NoisyLinear.f`, `discrete.py` lines 359-361, on given normal random numbers. -/
noncomputable def noise (randn : List ℝ) : List ℝ := randn.map fun x => Real.sign x * Real.sqrt |x|

/-- `NoisyLinear.sample`, `discrete.py` lines 364-366; `randn`: the random numbers drawn, of the sizes of the buffers. -/
noncomputable def Noisy.sample (l : Noisy ℝ) (randnP randnQ : List ℝ) : Noisy ℝ := { l with epsP := noise randnP, epsQ := noise randnQ }

/-! ### Spaces -/

section
variable {K : Type} [Field K] [LinearOrder K]

/-- The spaces that are supported: a box with bounds for all its numbers (flattened), or `n` integers from `start`. -/
inductive Space (K : Type)
  | box (shape : List Nat) (low high : List K)
  | discrete (n : Nat) (start : Int)

/-- `np.min`; it fails on an empty array. -/
def minOf : List K → Option K
  | [] => none
  | a :: l => some (l.foldl min a)

/-- `np.max`. -/
def maxOf : List K → Option K
  | [] => none
  | a :: l => some (l.foldl max a)

/-- `ActionSpaceInfo`, `space_info.py` lines 11-28: `action_dim`, `min_action`, `max_action`. -/
structure Info (K : Type) where
  dim : Nat
  lo : K
  hi : K

/-- `ActionSpaceInfo.from_space`, `space_info.py` lines 30-48. -/
def Info.ofSpace : Space K → Option (Info K)
  | .box shape low high => (minOf low).bind fun lo => (maxOf high).map fun hi => { dim := shape.prod, lo := lo, hi := hi }
  | .discrete n start => some { dim := n, lo := (start : K), hi := ((start + n - 1 : Int) : K) }

/-- What a random actor or distribution may return for one observation: an action in a box, or an integer. -/
inductive Act (K : Type)
  | vec (l : List K)
  | int (i : Int)

/-- Membership in a space (`Space.contains` of gymnasium). -/
def Space.contains : Space K → Act K → Prop
  | .box _ low high, .vec a => a.length = low.length ∧ a.length = high.length ∧
      ∀ i, i < a.length → low.getD i 0 ≤ a.getD i 0 ∧ a.getD i 0 ≤ high.getD i 0
  | .discrete n start, .int i => start ≤ i ∧ i < start + n
  | _, _ => False

/-- `RandomActor.compute_action_batch`, `common.py` lines 681-688, for one observation: in the discrete case an integer drawn from
`0, …, n - 1`, in the other case a sample of the space. `sample`, `rand`: the results of `action_space.sample` and `np.random.randint`. -/
def randomAct : Space K → (sample : List K) → (rand : Nat) → Act K
  | .box _ _ _, sample, _ => .vec sample
  | .discrete n _, _, rand => .int ((rand % n : Nat) : Int)

/-- `RandomActor.forward` for one observation in the discrete case, `common.py` line 678. -/
def randomProbs (n : Nat) : List K := List.replicate n (1 / (n : K) * 1)

/-- What `create_uniform_action_dist`, `torch_utils.py` lines 58-77, returns: for each element of the batch the bounds of a uniform
distribution, or the number of categories of a distribution with equal weights. -/
inductive ActDist (K : Type)
  | uniform (batch : List (List K × List K))
  | categorical (batch : List Nat)

/-- `create_uniform_action_dist`, `torch_utils.py` lines 58-77. `unsqueeze(0)` adds a dimension, and `repeat(batch_size, 1)` fails for more
than two; for none it returns a column. -/
def uniformDist (batch : Nat) : Space K → Option (ActDist K)
  | .box shape low high => if shape.length ≤ 1 then some (.uniform (List.replicate batch (low, high))) else none
  | .discrete n _ => some (.categorical (List.replicate batch n))

/-- What element `b` of a sample of the distribution can be. -/
def ActDist.support : ActDist K → Nat → Act K → Prop
  | .uniform l, b, .vec a => ∃ low high, l[b]? = some (low, high) ∧ Space.contains (.box [] low high) (.vec a)
  | .categorical l, b, .int i => ∃ n : Nat, l[b]? = some n ∧ 0 ≤ i ∧ i < n
  | _, _, _ => False

end

/-! ### Training mode -/

/-- A torch module: its flag `training` and the modules in it. -/
inductive Mod
  | node (training : Bool) (children : List Mod)

/-- `module.training`. -/
def Mod.training : Mod → Bool
  | .node t _ => t

mutual
/-- `nn.Module.train`: sets the flag here and in all modules inside. -/
def Mod.train (mode : Bool) : Mod → Mod
  | .node _ cs => .node mode (Mod.trainAll mode cs)
/-- The same for a list. -/
def Mod.trainAll (mode : Bool) : List Mod → List Mod
  | [] => []
  | c :: cs => c.train mode :: Mod.trainAll mode cs
end

/-- `train` of the policies that keep copies of their networks (e.g. `DQNPolicy.train`, `policy/modelfree/dqn.py` lines 111-115,
`DDPGPolicy.train`, `policy/modelfree/ddpg.py` lines 124-129): only some of the modules inside, here the first `k`, follow. -/
def Mod.trainSome (k : Nat) (mode : Bool) : Mod → Mod
  | .node _ cs => .node mode (Mod.trainAll mode (cs.take k) ++ cs.drop k)

/-- `torch_train_mode`, `torch_utils.py` lines 14-22, around a body that may change the modules and may raise an error; `train` is the
method of the module. -/
def trainMode {E R : Type} (train : Bool → Mod → Mod) (enabled : Bool) (body : Mod → Mod × Except E R) (m : Mod) : Mod × Except E R :=
  let original := m.training
  let r := body (train enabled m)
  (train original r.1, r.2)

end Verif.NetOut
