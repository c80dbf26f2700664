import Verif.Dict
import Mathlib.Logic.Relation

/-!
# Specification vocabulary for topological sorting
-/

namespace Dany.Topo

/-- Segment `x` (not the outlet code 0) flows into `y`. -/
def FlowsTo (topo : Dict ℤ ℤ) (x y : ℤ) : Prop := x ≠ 0 ∧ topo.get? x = some y

/-- Every segment flows into an existing segment or into the outlet code 0. -/
def RefsExist (topo : Dict ℤ ℤ) : Prop := ∀ x y, FlowsTo topo x y → y = 0 ∨ y ∈ topo.keys

/-- No directed cycle through two or more different segments. -/
def Acyclic (topo : Dict ℤ ℤ) : Prop :=
  ∀ x y, Relation.ReflTransGen (FlowsTo topo) x y → Relation.ReflTransGen (FlowsTo topo) y x → x = y

/-- `x` stands before `y` in the list. -/
def Before (l : List ℤ) (x y : ℤ) : Prop := ∃ a b, l = a ++ x :: b ∧ y ∈ b

/-- No flow path that does not repeat a segment (the outlet code 0 counts as its last stop) is longer
than `n`. -/
def ShortPaths (topo : Dict ℤ ℤ) (n : ℕ) : Prop :=
  ∀ p : List ℤ, p.IsChain (FlowsTo topo) → p.Nodup → p.length ≤ n

end Dany.Topo
