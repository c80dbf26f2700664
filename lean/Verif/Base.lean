import Mathlib.Data.Fin.Basic
import Mathlib.Logic.Function.Basic
import Mathlib.Tactic.Linarith

/-!
# Shared vocabulary of the model

`Res` is the outcome of a piece of Python code: a value, an exception, or "the fuel given to a
`while` loop did not suffice".
-/

namespace Dany

/-- The Python exceptions that occur in `/repo/dany`. -/
inductive PyErr where
  | indexError | keyError | valueError | assertionError | notImplementedError
  | typeError | recursionError | attributeError
  deriving DecidableEq, Repr

/-- Outcome of running Python code with a bounded amount of fuel for its `while` loops. -/
inductive Res (α : Type*) where
  | ok (a : α)
  | err (e : PyErr)
  | hang
  deriving Repr

instance {α : Type*} [DecidableEq α] : DecidableEq (Res α)
  | .ok a, .ok b => decidable_of_iff (a = b) (by simp)
  | .err a, .err b => decidable_of_iff (a = b) (by simp)
  | .hang, .hang => .isTrue rfl
  | .ok _, .err _ => .isFalse (by simp)
  | .ok _, .hang => .isFalse (by simp)
  | .err _, .ok _ => .isFalse (by simp)
  | .err _, .hang => .isFalse (by simp)
  | .hang, .ok _ => .isFalse (by simp)
  | .hang, .err _ => .isFalse (by simp)

namespace Res

variable {α β γ : Type*}

/-- Sequencing: the first exception, or exhausted fuel, ends the run. -/
def bind (x : Res α) (f : α → Res β) : Res β :=
  match x with
  | ok a => f a
  | err e => err e
  | hang => hang

/-- Apply a total function to the value of a run. -/
def map (f : α → β) (x : Res α) : Res β := x.bind (fun a => ok (f a))

@[simp] theorem bind_ok (a : α) (f : α → Res β) : (ok a).bind f = f a := rfl
@[simp] theorem bind_err (e : PyErr) (f : α → Res β) : (err e : Res α).bind f = err e := rfl
@[simp] theorem bind_hang (f : α → Res β) : (hang : Res α).bind f = hang := rfl
@[simp] theorem map_ok (a : α) (f : α → β) : (ok a).map f = ok (f a) := rfl
@[simp] theorem map_err (e : PyErr) (f : α → β) : (err e : Res α).map f = err e := rfl
@[simp] theorem map_hang (f : α → β) : (hang : Res α).map f = hang := rfl

theorem bind_eq_ok {x : Res α} {f : α → Res β} {b : β} :
    x.bind f = ok b ↔ ∃ a, x = ok a ∧ f a = ok b := by
  cases x <;> simp [bind]

theorem map_eq_ok {x : Res α} {f : α → β} {b : β} :
    x.map f = ok b ↔ ∃ a, x = ok a ∧ f a = b := by
  cases x <;> simp [map, bind]

/-- The run `x`, made with a smaller recursion limit, either stops with `RecursionError` or does
exactly what `y` does. -/
def LeRec (x y : Res α) : Prop := x = err .recursionError ∨ x = y

theorem LeRec.refl (x : Res α) : LeRec x x := .inr rfl

theorem LeRec.bind {x y : Res α} {f g : α → Res β} (h : LeRec x y) (hf : ∀ a, LeRec (f a) (g a)) :
    LeRec (x.bind f) (y.bind g) := by
  rcases h with rfl | rfl
  · exact .inl rfl
  · cases x with
    | ok a => exact hf a
    | err e => exact .inr rfl
    | hang => exact .inr rfl

theorem LeRec.map {x y : Res α} (h : LeRec x y) (f : α → β) : LeRec (x.map f) (y.map f) :=
  h.bind fun _ => .refl _

theorem LeRec.ok {x y : Res α} {a : α} (h : LeRec x y) (hx : x = Res.ok a) : y = Res.ok a := by
  rcases h with h | h
  · rw [h] at hx; cases hx
  · rw [← h]; exact hx

end Res

/-- numpy's rule for an integer index into an axis of length `N`: negative indices count from the
end, anything outside `[-N, N)` raises `IndexError`. -/
def pyIndex (N : ℕ) (i : ℤ) : Res (Fin N) :=
  if h : 0 ≤ i ∧ i < N then .ok ⟨i.toNat, by omega⟩
  else if h : -(N : ℤ) ≤ i ∧ i < 0 then .ok ⟨(N + i).toNat, by omega⟩
  else .err .indexError

/-- Indexing with a natural number (neighbour numbers are never negative). -/
def natIndex (N : ℕ) (i : ℕ) : Res (Fin N) :=
  if h : i < N then .ok ⟨i, h⟩ else .err .indexError

@[simp] theorem natIndex_fin {N : ℕ} (i : Fin N) : natIndex N i.val = .ok i := by
  simp [natIndex]

/-- The in-range members of a list of node numbers. -/
def inRange (N : ℕ) (l : List ℕ) : List (Fin N) :=
  l.filterMap (fun n => if h : n < N then some ⟨n, h⟩ else none)

theorem mem_inRange {N : ℕ} {l : List ℕ} {n : Fin N} : n ∈ inRange N l ↔ n.val ∈ l := by
  unfold inRange
  rw [List.mem_filterMap]
  constructor
  · rintro ⟨a, ha, h⟩
    split at h
    · cases h; exact ha
    · cases h
  · intro h
    exact ⟨n.val, h, by simp⟩

end Dany
