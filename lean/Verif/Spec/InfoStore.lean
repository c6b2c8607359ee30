import Verif.Model.InfoStore
import Verif.Spec.Pipeline

/-! Specification vocabulary: information with fixed types, transitions still in the buffer, and missing values. -/

namespace Verif.InfoStore

open Verif.Buffer Verif.Pipeline

variable {O A R S : Type}

/-- Under each key the environments return values of one type only. -/
def Typed (kindOf : String → Kind) (rows : List (Nat × Collector.Row O A R (Info S))) : Prop :=
  ∀ p ∈ rows, ∀ key v, get p.2.out.info key = some v → v.kind = kindOf key

/-- The `p`-th transition of environment `e` is `row`, and it is one of the newest `size e`. -/
def Held (size : Nat → Nat) (rows : List (Nat × Collector.Row O A R (Info S))) (e p : Nat) (row : Collector.Row O A R (Info S)) : Prop :=
  (Collector.rowsOf e [rows])[p]? = some row ∧ (Collector.rowsOf e [rows]).length ≤ p + size e

/-- `buffer.info[key][slot]`, if there is such an array. -/
def Store.read (x : Store S) (key : String) (slot : Nat) : Option (Val S) := (x.column key).map fun c => c.cell slot

/-- NaN or `None`. -/
def Missing (v : Val S) : Prop := v = .float none ∨ v = .obj none

end Verif.InfoStore
