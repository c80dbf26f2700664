import Verif.Torn.Props
import Verif.Fail.Lemmas

/-!
# C151: calls in the wrong order
-/

/-! ### `FlowDirections` -/

namespace Dany.Fail.Fd

open Prog

variable {N : ℕ} {K : Type*} [Field K] [LinearOrder K]

/-- the exception of a call on an object without directions -/
def Call.early : Call N K → PyErr
  | .subbasins _ _ (_ :: _) => .typeError
  | _ => .attributeError

/-- **C151.**  On a `FlowDirections` object whose directions have not been calculated, and which holds no table of
reversed directions, `flow_accumulation`, `get_watershed_boundary` and `get_subbasins` raise (`AttributeError`; `TypeError`
for a list of points that is not empty) without a single assignment. -/
theorem C151_flow (g : GridType) (o : Fd N K) (hf : o.fdir = none) (hr : o.fdirR = none) (c : Call N K)
    (hc : ∀ fuel thr t, c ≠ .dirs fuel thr t) : c.prog g o = ([], .err c.early) := by
  cases c with
  | dirs fuel thr t => exact absurd rfl (hc fuel thr t)
  | accumulate fuel b =>
    simp [Call.prog, accumulate, Prog.bind, Prog.read, hf, attr, Res.bind, Call.early]
  | watershed fuel c =>
    simp [Call.prog, Fd.watershed, reverse, Prog.bind, Prog.read, hf, hr, attr, Res.bind, Call.early, latest]
  | subbasins limit fuel l =>
    cases l with
    | nil => simp [Call.prog, Fd.subbasins, Prog.bind, Prog.read, hf, attr, Res.bind, Call.early]
    | cons a l => simp [Call.prog, Fd.subbasins, Prog.bind, Prog.read, hf, item, Res.bind, Call.early]

/-- and so in any number of calls, interrupted or not -/
theorem C151_flow_history (g : GridType) (o : Fd N K) (hf : o.fdir = none) (hr : o.fdirR = none)
    (h : List (Call N K × Option ℕ)) (hh : ∀ c ∈ h, ∀ fuel thr t, c.1 ≠ .dirs fuel thr t) : history g o h = o := by
  induction h with
  | nil => rfl
  | cons c h ih =>
    obtain ⟨c, k⟩ := c
    have hc := C151_flow g o hf hr c (hh (c, k) (by simp))
    have hrest := ih fun c' hc' => hh c' (by simp [hc'])
    have h1 : (c.prog g).after o = o := by simp [after, hc]
    have h2 : ∀ k, (c.prog g).cut o k = o := fun k => by simp [cut, hc]
    unfold history at hrest ⊢
    rw [List.foldl_cons]
    cases k with
    | none => simp only [h1]; exact hrest
    | some k => simp only [h2]; exact hrest

end Dany.Fail.Fd

/-! ### Stream objects -/

namespace Dany.Torn

open Reach Seg Fail Prog

variable {N : ℕ} {K : Type*} [Field K] [LinearOrder K]

/-- the call is given neither an array nor a graph to work on -/
def Call.bare : Call N → Bool
  | .store _ => false
  | .conn6 a => a.isNone
  | .conn5 a _ => a.isNone
  | .vectors _ a _ => a.isNone
  | .connData g => g.isNone
  | .packageData a => a.isNone
  | .reachData a _ => a.isNone
  | .segmentData a _ => a.isNone
  | .irun _ a _ _ => a.isNone
  | .cascades a _ _ _ => a.isNone
  | .prmsBuilder a _ _ _ => a.isNone

/-- **C151.**  On a stream object without a stream array (neither `set_stream_array` nor `delineate_streams` has been
called) and without a stored graph, every method that is not given an array raises `AssertionError`, without a single
assignment. -/
theorem C151_stream (E : Env N) (W : World N K) (s : Sm N) (hs : s.streamArray = none) (hg : s.graph = none) (c : Call N)
    (hc : c.bare = true) : c.prog E W s = ([], .err .assertionError) := by
  have h6 : conn6 E none s = ([], .err .assertionError) := by simp [Torn.conn6, source, Prog.bind, Prog.read, hs]
  have h5 : ∀ b, conn5 E none b s = ([], .err .assertionError) := fun b => by
    simp [Torn.conn5, source, Prog.bind, Prog.read, hs]
  have hP : ∀ b, connP E none b s = ([], .err .assertionError) := fun b => by
    unfold connP
    split
    · exact h5 true
    · exact h6
  cases c <;> simp only [Call.bare, Option.isNone_iff_eq_none, Bool.false_eq_true] at hc <;> subst hc <;>
    simp [Call.prog, h6, h5, hP, Torn.vectors, Torn.connData, graphOf, Torn.packageData, Torn.reachData, ensure,
      Torn.segmentData, Torn.irun, Torn.cascades, Torn.prmsBuilder, source, Prog.bind, Prog.seq, Prog.read, hs, hg,
      latest]

/-- so a new object stays as it was constructed, and keeps raising -/
theorem C151_stream_history (E : Env N) (W : World N K) (h : List (Call N × Option ℕ)) (hh : ∀ c ∈ h, c.1.bare = true) :
    cutHistory E W Sm.new h = Sm.new := by
  induction h with
  | nil => rfl
  | cons c h ih =>
    obtain ⟨c, k⟩ := c
    have hc := C151_stream E W Sm.new rfl rfl c (hh (c, k) (by simp))
    have hrest := ih fun c' hc' => hh c' (by simp [hc'])
    have h1 : (c.prog E W).after Sm.new = Sm.new := by simp [after, hc]
    have h2 : ∀ k, (c.prog E W).cut Sm.new k = Sm.new := fun k => by simp [cut, hc]
    unfold cutHistory at hrest ⊢
    rw [List.foldl_cons]
    cases k with
    | none => simp only [h1]; exact hrest
    | some k => simp only [h2]; exact hrest

/-- calls of a new object on three cells -/
example (W : World 3 ℚ) : cutHistory (⟨![1, 2, 2], false, 10, 10⟩ : Env 3) W Sm.new
    [(.conn5 none true, none), (.packageData none, some 1), (.irun 5 none none true, none)] = Sm.new :=
  C151_stream_history _ W _ (by simp [Call.bare])

/-- with an array the same call changes the object: the assumption is needed -/
example : (conn6 (⟨![1, 2, 2], false, 10, 10⟩ : Env 3) (some ![0, 1, 1])).after Sm.new ≠ Sm.new := by
  intro h
  have : ((conn6 (⟨![1, 2, 2], false, 10, 10⟩ : Env 3) (some ![0, 1, 1])).after Sm.new).graph.isSome = true := by
    decide +kernel
  rw [h] at this
  exact absurd this (by simp [Sm.new])

end Dany.Torn
