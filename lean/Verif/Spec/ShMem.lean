import Verif.Model.ShMem

/-!
Specification for `Verif.Props.ShMem`: when two nested dictionaries are equal, which observations belong to a space, and what
a user sees of the results of a sequence of calls.
-/

namespace Verif.ShMem

variable {V σ A R : Type}

/-- The keys of a dictionary. -/
def Forest.keys {α : Type} (f : Forest α) : List String := f.items.map Prod.fst

/-- Equal as Python objects: dictionaries are compared by the values of their keys, in whatever order they come. -/
inductive Same : Tree (Value V) → Tree (Value V) → Prop
  | leaf (v : Value V) : Same (.leaf v) (.leaf v)
  | dict {f g : Forest (Value V)} (keys : ∀ k, k ∈ f.keys ↔ k ∈ g.keys)
      (items : ∀ k a b, (k, a) ∈ f.items → (k, b) ∈ g.items → Same a b) : Same (.dict f) (.dict g)

/-- `space.contains(obs)`, with arrays of the shape of the box. -/
inductive InSpace : Tree Space → Tree (Value V) → Prop
  | box (shape : List Nat) (entries : List V) (size : entries.length = shape.prod) :
      InSpace (.leaf (.box shape)) (.leaf (.array shape entries))
  | discrete (v : V) : InSpace (.leaf .discrete) (.leaf (.number v))
  | dict {f : Forest Space} {g : Forest (Value V)} (distinct : g.keys.Nodup) (keys : ∀ k, k ∈ f.keys ↔ k ∈ g.keys)
      (items : ∀ k s o, (k, s) ∈ f.items → (k, o) ∈ g.items → InSpace s o) : InSpace (.dict f) (.dict g)

/-- A space without `Discrete` parts, whose dictionaries have different keys. -/
inductive Boxes : Tree Space → Prop
  | box (shape : List Nat) : Boxes (.leaf (.box shape))
  | dict {f : Forest Space} (distinct : f.keys.Nodup) (items : ∀ k s, (k, s) ∈ f.items → Boxes s) : Boxes (.dict f)

/-- What a user sees of the results of a sequence of calls who looks at each result as soon as it is returned: for every call
and every environment of the call the observation and the rest. -/
def results (run : A → σ → σ × Tree (Value V) × R) :
    List (List (Nat × A)) → List (Worker σ V) → Option (List (List (Option (Tree (Value V)) × R)))
  | [], _ => some []
  | c :: t, ws =>
    match call run c ws with
    | none => none
    | some (ws', rows) => (results run t ws').map fun l => rows.map (fun r => (r.1.look ws', r.2)) :: l

/-- The state after a sequence of calls. -/
def after (run : A → σ → σ × Tree (Value V) × R) :
    List (List (Nat × A)) → List (Worker σ V) → Option (List (Worker σ V))
  | [], ws => some ws
  | c :: t, ws => (call run c ws).bind fun p => after run t p.1

/-- Calls to existing environments, each at most once in a call. -/
def Calls (n : Nat) (h : List (List (Nat × A))) : Prop :=
  ∀ c ∈ h, (c.map Prod.fst).Nodup ∧ ∀ p ∈ c, p.1 < n

end Verif.ShMem
