import Verif.Dict
import Mathlib.Data.List.Basic

/-!
# Methods as sequences of writes to the object

The other modules say what a call returns.  Here a method is a program that lists the states its object goes
through, one per assignment to an attribute, also if it ends with an exception.  A call that is interrupted (for
instance by `KeyboardInterrupt`) leaves the object in one of the listed states.
-/

namespace Dany.Fail

variable {σ α β : Type*}

/-- A method of an object with state `σ`: the states after each write, and the outcome -/
def Prog (σ α : Type*) := σ → List σ × Res α

/-- the latest of the states, `s` if there is none -/
def latest (s : σ) (t : List σ) : σ := t.getLastD s

namespace Prog

/-- `return a` -/
def pure (a : α) : Prog σ α := fun _ => ([], .ok a)

/-- A calculation that reads the object and may raise -/
def read (f : σ → Res α) : Prog σ α := fun s => ([], f s)

/-- One assignment to an attribute -/
def write (g : σ → σ) : Prog σ Unit := fun s => ([g s], .ok ())

/-- Sequencing: an exception ends the method, what has been written stays. -/
def bind (p : Prog σ α) (f : α → Prog σ β) : Prog σ β := fun s =>
  match p s with
  | (t, .ok a) => (t ++ (f a (latest s t)).1, (f a (latest s t)).2)
  | (t, .err e) => (t, .err e)
  | (t, .hang) => (t, .hang)

/-- `p; q` -/
def seq (p : Prog σ Unit) (q : Prog σ β) : Prog σ β := p.bind fun _ => q

/-- `for x in l: body x` -/
def each : List β → (β → Prog σ Unit) → Prog σ Unit
  | [], _ => pure ()
  | x :: l, body => (body x).seq (each l body)

/-- The object when the call is over, returned or raised -/
def after (p : Prog σ α) (s : σ) : σ := latest s (p s).1

/-- What the call returns or raises -/
def res (p : Prog σ α) (s : σ) : Res α := (p s).2

/-- The object if the call is interrupted after `k` writes -/
def cut (p : Prog σ α) (s : σ) (k : ℕ) : σ := latest s ((p s).1.take k)

end Prog

/-! ### Rules -/

@[simp] theorem latest_nil (s : σ) : latest s [] = s := rfl

@[simp] theorem latest_append (s : σ) (t u : List σ) : latest s (t ++ u) = latest (latest s t) u := by
  unfold latest
  rw [List.getLastD_eq_getLast?, List.getLastD_eq_getLast?, List.getLastD_eq_getLast?, List.getLast?_append]
  cases u.getLast? <;> simp

theorem latest_singleton (s a : σ) : latest s [a] = a := rfl

theorem latest_mem (s : σ) (t : List σ) : latest s t = s ∨ latest s t ∈ t := by
  cases t with
  | nil => exact .inl rfl
  | cons a t =>
    right
    unfold latest
    rw [List.getLastD_cons]
    rw [List.getLastD_eq_getLast?]
    cases h : t.getLast? with
    | none => simp
    | some b => simpa using .inr (List.mem_of_getLast? h)

namespace Prog

variable {p : Prog σ α} {f : α → Prog σ β} {s : σ}

theorem cut_all (p : Prog σ α) (s : σ) : p.cut s (p s).1.length = p.after s := by
  unfold cut after
  rw [List.take_length]

theorem cut_zero (p : Prog σ α) (s : σ) : p.cut s 0 = s := rfl

theorem cut_mem (p : Prog σ α) (s : σ) (k : ℕ) : p.cut s k = s ∨ p.cut s k ∈ (p s).1 := by
  rcases latest_mem s ((p s).1.take k) with h | h
  · exact .inl h
  · exact .inr (List.mem_of_mem_take h)

theorem bind_of_ok {a : α} (h : p.res s = .ok a) :
    (p.bind f).res s = (f a).res (p.after s) ∧ (p.bind f).after s = (f a).after (p.after s) ∧
      (p.bind f s).1 = (p s).1 ++ (f a (p.after s)).1 := by
  unfold Prog.bind res after at *
  cases hp : p s with
  | mk t r =>
    rw [hp] at h
    dsimp only at h
    subst h
    simp [hp]

theorem bind_of_err {e : PyErr} (h : p.res s = .err e) :
    (p.bind f).res s = .err e ∧ (p.bind f).after s = p.after s ∧ (p.bind f s).1 = (p s).1 := by
  unfold Prog.bind res after at *
  cases hp : p s with
  | mk t r =>
    rw [hp] at h
    dsimp only at h
    subst h
    simp [hp]

theorem bind_of_hang (h : p.res s = .hang) :
    (p.bind f).res s = .hang ∧ (p.bind f).after s = p.after s ∧ (p.bind f s).1 = (p s).1 := by
  unfold Prog.bind res after at *
  cases hp : p s with
  | mk t r =>
    rw [hp] at h
    dsimp only at h
    subst h
    simp [hp]

@[simp] theorem res_pure (a : α) : (pure a : Prog σ α).res s = .ok a := rfl
@[simp] theorem after_pure (a : α) : (pure a : Prog σ α).after s = s := rfl
@[simp] theorem res_read (g : σ → Res α) : (read g).res s = g s := rfl
@[simp] theorem after_read (g : σ → Res α) : (read g).after s = s := rfl
@[simp] theorem res_write (g : σ → σ) : (write g).res s = .ok () := rfl
@[simp] theorem after_write (g : σ → σ) : (write g).after s = g s := rfl

/-- what a program returns, in terms of its parts -/
theorem res_bind : (p.bind f).res s = (p.res s).bind fun a => (f a).res (p.after s) := by
  cases h : p.res s with
  | ok a => rw [(bind_of_ok h).1]; rfl
  | err e => rw [(bind_of_err h).1]; rfl
  | hang => rw [(bind_of_hang h).1]; rfl

/-- the object after a program, in terms of its parts -/
theorem after_bind : (p.bind f).after s = match p.res s with
    | .ok a => (f a).after (p.after s)
    | _ => p.after s := by
  cases h : p.res s with
  | ok a => rw [(bind_of_ok h).2.1]
  | err e => rw [(bind_of_err h).2.1]
  | hang => rw [(bind_of_hang h).2.1]

theorem res_seq {p : Prog σ Unit} {q : Prog σ β} :
    (p.seq q).res s = (p.res s).bind fun _ => q.res (p.after s) := res_bind

/-- If the program starts in a state satisfying `I`, it goes through such states only. -/
def Inv (I : σ → Prop) (p : Prog σ α) : Prop := ∀ s, I s → ∀ s' ∈ (p s).1, I s'

variable {I : σ → Prop}

theorem inv_pure (a : α) : Inv I (pure a : Prog σ α) := fun _ _ _ h => by cases h

theorem inv_read (g : σ → Res α) : Inv I (read g) := fun _ _ _ h => by cases h

theorem inv_write {g : σ → σ} (h : ∀ s, I s → I (g s)) : Inv I (write g) := by
  intro s hi s' hs
  have : s' = g s := by simpa [write] using hs
  rw [this]
  exact h s hi

theorem Inv.after {p : Prog σ α} (h : Inv I p) {s : σ} (hs : I s) : I (p.after s) := by
  rcases latest_mem s (p s).1 with h1 | h1
  · unfold Prog.after; rw [h1]; exact hs
  · exact h s hs _ h1

theorem Inv.cut {p : Prog σ α} (h : Inv I p) {s : σ} (hs : I s) (k : ℕ) : I (p.cut s k) := by
  rcases p.cut_mem s k with h1 | h1
  · rw [h1]; exact hs
  · exact h s hs _ h1

theorem inv_bind (hp : Inv I p) (hf : ∀ a, (∃ s, I s ∧ p.res s = .ok a) → Inv I (f a)) : Inv I (p.bind f) := by
  intro s hi s' hs
  cases h : p.res s with
  | ok a =>
    rw [(bind_of_ok h).2.2, List.mem_append] at hs
    rcases hs with hs | hs
    · exact hp s hi s' hs
    · exact hf a ⟨s, hi, h⟩ _ (hp.after hi) s' hs
  | err e => rw [(bind_of_err h).2.2] at hs; exact hp s hi s' hs
  | hang => rw [(bind_of_hang h).2.2] at hs; exact hp s hi s' hs

theorem inv_seq {p : Prog σ Unit} {q : Prog σ β} (hp : Inv I p) (hq : Inv I q) : Inv I (p.seq q) :=
  inv_bind hp fun _ _ => hq

theorem inv_each {body : β → Prog σ Unit} (l : List β) (hb : ∀ x ∈ l, Inv I (body x)) : Inv I (each l body) := by
  induction l with
  | nil => exact inv_pure ()
  | cons x l ih => exact inv_seq (hb x (by simp)) (ih fun y hy => hb y (by simp [hy]))

end Prog

end Dany.Fail
