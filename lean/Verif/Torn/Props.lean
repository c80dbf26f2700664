import Verif.Torn.Model
import Verif.Fail.Lemmas
import Verif.Rdata.Props

/-!
# C103 and C109: stream objects after exceptions and interrupts
-/

namespace Dany.Torn

open Reach Seg Fail Prog

variable {N : ℕ} {K V : Type*} {E : Env N}

/-- a call of a connectivity method on `s` returned and left the object `s'` -/
def Connects (E : Env N) (s s' : Sm N) : Prop :=
  (∃ arg g, (conn6 E arg).res s = .ok g ∧ s' = (conn6 E arg).after s) ∨
  (∃ arg grp g, (conn5 E arg grp).res s = .ok g ∧ s' = (conn5 E arg grp).after s)

/-! ### The two connectivity methods -/

theorem source_trace (arg : Option (Fin N → ℤ)) (s : Sm N) : (source arg s).1 = [] := rfl

theorem after_source (arg : Option (Fin N → ℤ)) (s : Sm N) : (source arg).after s = s := rfl

theorem conn6_run (E : Env N) (arg : Option (Fin N → ℤ)) (s : Sm N) :
    (∃ sa r, (source arg).res s = .ok sa ∧ mf6 E.limit E.fdir sa = .ok r ∧ conn6 E arg s =
      ([{ s with streamArray := some r.1 }, { s with streamArray := some r.1, graph := some (someVals r.2) }], .ok r.2)) ∨
    ((conn6 E arg s).1 = [] ∧ ∀ g, (conn6 E arg).res s ≠ .ok g) := by
  cases hsa : (source arg).res s with
  | ok sa =>
    cases hr : mf6 E.limit E.fdir sa with
    | ok r =>
      left
      refine ⟨sa, r, rfl, hr, ?_⟩
      have hb := bind_of_ok (f := fun sa => (read fun _ : Sm N => mf6 E.limit E.fdir sa).bind fun r =>
        (write fun o => { o with streamArray := some r.1 }).seq <|
        (write fun o => { o with graph := some (someVals r.2) }).seq <| pure r.2) hsa
      have hc := bind_of_ok (p := read fun _ : Sm N => mf6 E.limit E.fdir sa) (s := s) (f := fun r =>
        (write fun o => { o with streamArray := some r.1 }).seq <|
        (write fun o => { o with graph := some (someVals r.2) }).seq <| pure r.2) (a := r) hr
      have h1 : (conn6 E arg s).1 = _ := hb.2.2.trans (congrArg _ hc.2.2)
      have h2 : (conn6 E arg).res s = _ := hb.1.trans hc.1
      exact Prod.ext h1 h2
    | err e =>
      right
      have hb := bind_of_ok (f := fun sa => (read fun _ : Sm N => mf6 E.limit E.fdir sa).bind fun r =>
        (write fun o => { o with streamArray := some r.1 }).seq <|
        (write fun o => { o with graph := some (someVals r.2) }).seq <| pure r.2) hsa
      have hc := bind_of_err (p := read fun _ : Sm N => mf6 E.limit E.fdir sa) (s := s) (f := fun r =>
        (write fun o => { o with streamArray := some r.1 }).seq <|
        (write fun o => { o with graph := some (someVals r.2) }).seq <| pure r.2) (e := e) hr
      have h1 : (conn6 E arg s).1 = _ := hb.2.2.trans (congrArg _ hc.2.2)
      have h2 : (conn6 E arg).res s = _ := hb.1.trans hc.1
      exact ⟨h1, fun g hg => by rw [h2] at hg; cases hg⟩
    | hang =>
      right
      have hb := bind_of_ok (f := fun sa => (read fun _ : Sm N => mf6 E.limit E.fdir sa).bind fun r =>
        (write fun o => { o with streamArray := some r.1 }).seq <|
        (write fun o => { o with graph := some (someVals r.2) }).seq <| pure r.2) hsa
      have hc := bind_of_hang (p := read fun _ : Sm N => mf6 E.limit E.fdir sa) (s := s) (f := fun r =>
        (write fun o => { o with streamArray := some r.1 }).seq <|
        (write fun o => { o with graph := some (someVals r.2) }).seq <| pure r.2) hr
      have h1 : (conn6 E arg s).1 = _ := hb.2.2.trans (congrArg _ hc.2.2)
      have h2 : (conn6 E arg).res s = _ := hb.1.trans hc.1
      exact ⟨h1, fun g hg => by rw [h2] at hg; cases hg⟩
  | err e =>
    right
    unfold conn6
    exact ⟨(bind_of_err hsa).2.2, fun g hg => by rw [(bind_of_err hsa).1] at hg; cases hg⟩
  | hang =>
    right
    unfold conn6
    exact ⟨(bind_of_hang hsa).2.2, fun g hg => by rw [(bind_of_hang hsa).1] at hg; cases hg⟩

/-- the object after a complete MODFLOW-2005 connectivity call -/
def Sm.ofOut (out : Out N) : Sm N := ⟨some out.sa, some (Vec.asGraph out.graph), some out.sg, some out.nsr⟩

theorem conn5_run (E : Env N) (arg : Option (Fin N → ℤ)) (grp : Bool) (s : Sm N) :
    (∃ sa out, (source arg).res s = .ok sa ∧ mf2005 E.limit E.fuel E.unstructured E.fdir sa grp = .ok out ∧
      conn5 E arg grp s = ([⟨some out.sa, s.graph, s.segGraph, s.nsr⟩,
        ⟨some out.sa, some (Vec.asGraph out.graph), s.segGraph, s.nsr⟩,
        ⟨some out.sa, some (Vec.asGraph out.graph), some out.sg, s.nsr⟩, Sm.ofOut out], .ok out.sg)) ∨
    ((conn5 E arg grp s).1 = [] ∧ ∀ g, (conn5 E arg grp).res s ≠ .ok g) := by
  cases hsa : (source arg).res s with
  | ok sa =>
    have hb := bind_of_ok (f := fun sa => (read fun _ : Sm N => mf2005 E.limit E.fuel E.unstructured E.fdir sa grp).bind
      fun out : Out N =>
        (write fun o => { o with streamArray := some out.sa }).seq <|
        (write fun o => { o with graph := some (Vec.asGraph out.graph) }).seq <|
        (write fun o => { o with segGraph := some out.sg }).seq <|
        (write fun o => { o with nsr := some out.nsr }).seq <| pure out.sg) hsa
    cases hr : mf2005 E.limit E.fuel E.unstructured E.fdir sa grp with
    | ok out =>
      left
      refine ⟨sa, out, rfl, hr, ?_⟩
      have hc := bind_of_ok (p := read fun _ : Sm N => mf2005 E.limit E.fuel E.unstructured E.fdir sa grp) (s := s)
        (f := fun out : Out N =>
          (write fun o => { o with streamArray := some out.sa }).seq <|
          (write fun o => { o with graph := some (Vec.asGraph out.graph) }).seq <|
          (write fun o => { o with segGraph := some out.sg }).seq <|
          (write fun o => { o with nsr := some out.nsr }).seq <| pure out.sg) (a := out) hr
      have h1 : (conn5 E arg grp s).1 = _ := hb.2.2.trans (congrArg _ hc.2.2)
      have h2 : (conn5 E arg grp).res s = _ := hb.1.trans hc.1
      exact Prod.ext h1 h2
    | err e =>
      right
      have hc := bind_of_err (p := read fun _ : Sm N => mf2005 E.limit E.fuel E.unstructured E.fdir sa grp) (s := s)
        (f := fun out : Out N =>
          (write fun o => { o with streamArray := some out.sa }).seq <|
          (write fun o => { o with graph := some (Vec.asGraph out.graph) }).seq <|
          (write fun o => { o with segGraph := some out.sg }).seq <|
          (write fun o => { o with nsr := some out.nsr }).seq <| pure out.sg) (e := e) hr
      have h1 : (conn5 E arg grp s).1 = _ := hb.2.2.trans (congrArg _ hc.2.2)
      have h2 : (conn5 E arg grp).res s = _ := hb.1.trans hc.1
      exact ⟨h1, fun g hg => by rw [h2] at hg; cases hg⟩
    | hang =>
      right
      have hc := bind_of_hang (p := read fun _ : Sm N => mf2005 E.limit E.fuel E.unstructured E.fdir sa grp) (s := s)
        (f := fun out : Out N =>
          (write fun o => { o with streamArray := some out.sa }).seq <|
          (write fun o => { o with graph := some (Vec.asGraph out.graph) }).seq <|
          (write fun o => { o with segGraph := some out.sg }).seq <|
          (write fun o => { o with nsr := some out.nsr }).seq <| pure out.sg) hr
      have h1 : (conn5 E arg grp s).1 = _ := hb.2.2.trans (congrArg _ hc.2.2)
      have h2 : (conn5 E arg grp).res s = _ := hb.1.trans hc.1
      exact ⟨h1, fun g hg => by rw [h2] at hg; cases hg⟩
  | err e =>
    right
    unfold conn5
    exact ⟨(bind_of_err hsa).2.2, fun g hg => by rw [(bind_of_err hsa).1] at hg; cases hg⟩
  | hang =>
    right
    unfold conn5
    exact ⟨(bind_of_hang hsa).2.2, fun g hg => by rw [(bind_of_hang hsa).1] at hg; cases hg⟩

theorem after_of_trace {σ α : Type*} {p : Prog σ α} {s : σ} (h : (p s).1 = []) : p.after s = s := by
  unfold after; rw [h]; rfl

/-! ### Whole states only -/

/-- the object is left as it was, or as after a complete connectivity call -/
def Whole {α : Type*} (E : Env N) (p : Prog (Sm N) α) : Prop :=
  ∀ s, p.after s = s ∨ Connects E s (p.after s)

theorem whole_conn6 (arg : Option (Fin N → ℤ)) : Whole E (conn6 E arg) := by
  intro s
  rcases conn6_run E arg s with ⟨sa, r, _, _, h⟩ | ⟨h, _⟩
  · right; left
    exact ⟨arg, r.2, by unfold res; rw [h], rfl⟩
  · exact .inl (after_of_trace h)

theorem whole_conn5 (arg : Option (Fin N → ℤ)) (grp : Bool) : Whole E (conn5 E arg grp) := by
  intro s
  rcases conn5_run E arg grp s with ⟨sa, r, _, _, h⟩ | ⟨h, _⟩
  · right; right
    exact ⟨arg, grp, r.sg, by unfold res; rw [h], rfl⟩
  · exact .inl (after_of_trace h)

/-- a program that only reads -/
def Still {σ α : Type*} (p : Prog σ α) : Prop := ∀ s, p.after s = s

theorem still_pure {σ α : Type*} (a : α) : Still (pure a : Prog σ α) := fun _ => rfl
theorem still_read {σ α : Type*} (g : σ → Res α) : Still (read g) := fun _ => rfl
theorem still_source (arg : Option (Fin N → ℤ)) : Still (source arg) := fun _ => rfl

theorem Still.bind {σ α β : Type*} {p : Prog σ α} {f : α → Prog σ β} (hp : Still p) (hf : ∀ a, Still (f a)) :
    Still (p.bind f) := by
  intro s
  rw [after_bind]
  cases p.res s with
  | ok a => exact (hf a _).trans (hp s)
  | err e => exact hp s
  | hang => exact hp s

theorem Still.whole {α : Type*} {p : Prog (Sm N) α} (h : Still p) : Whole E p := fun s => .inl (h s)

/-- what follows only reads -/
theorem Whole.bind_still {α β : Type*} {p : Prog (Sm N) α} {f : α → Prog (Sm N) β} (hp : Whole E p)
    (hf : ∀ a, Still (f a)) : Whole E (p.bind f) := by
  intro s
  have : (p.bind f).after s = p.after s := by
    rw [after_bind]
    cases p.res s with
    | ok a => exact hf a _
    | err e => rfl
    | hang => rfl
  rw [this]
  exact hp s

/-- what comes before only reads -/
theorem Still.bind_whole {α β : Type*} {p : Prog (Sm N) α} {f : α → Prog (Sm N) β} (hp : Still p)
    (hf : ∀ a, Whole E (f a)) : Whole E (p.bind f) := by
  intro s
  rw [after_bind, hp s]
  cases p.res s with
  | ok a => exact hf a s
  | err e => exact .inl rfl
  | hang => exact .inl rfl

theorem whole_connP (arg : Option (Fin N → ℤ)) (grp : Bool) : Whole E (connP E arg grp) := by
  unfold connP
  split
  · exact whole_conn5 _ _
  · exact whole_conn6 _

theorem whole_graphOf (given : Option (Dict ℤ (Option ℤ))) : Whole E (graphOf E given) := by
  cases given with
  | some g => exact (still_pure g).whole
  | none =>
    refine Still.bind_whole (still_read _) fun g => ?_
    cases g with
    | some g => exact (still_pure g).whole
    | none => exact (whole_conn6 none).bind_still fun g => still_pure _

theorem whole_ensure (arg : Option (Fin N → ℤ)) (grp : Bool) : Whole E (ensure E arg grp) := by
  refine Still.bind_whole (still_source arg) fun sa => Still.bind_whole (still_read _) fun sg => ?_
  cases sg with
  | some g => exact (still_pure ()).whole
  | none => exact (whole_conn5 _ _).bind_still fun g => still_pure _

variable [Field K] [LinearOrder K]

theorem whole_cascades (nbs : Fin N → List (Fin N × Option K)) (arg : Option (Fin N → ℤ)) (active : Fin N → Bool)
    (m k : Bool) : Whole E (cascades E nbs arg active m k) := by
  refine Still.bind_whole (still_source arg) fun sa => Still.bind_whole (still_read _) fun g => ?_
  refine Whole.bind_still ?_ fun sa => still_read _
  cases g with
  | some g => exact (still_pure _).whole
  | none => exact (whole_connP _ _).bind_still fun g => still_source _

/-- with a graph stored, the cascades only read -/
theorem cascades_after (nbs : Fin N → List (Fin N × Option K)) (arg : Option (Fin N → ℤ)) (active : Fin N → Bool)
    (m k : Bool) {s : Sm N} (hg : s.graph ≠ none) : (cascades E nbs arg active m k).after s = s := by
  unfold cascades
  rw [after_bind]
  cases hsa : (source arg).res s with
  | ok sa =>
    dsimp only
    rw [after_source, after_read_bind]
    cases hg' : s.graph with
    | none => exact absurd hg' hg
    | some g => exact Still.bind (still_pure _) (fun _ => still_read _) s
  | err e => rfl
  | hang => rfl

theorem whole_prmsBuilder (nbs : Fin N → List (Fin N × Option K)) (arg : Option (Fin N → ℤ)) (active : Fin N → Bool)
    (grp m : Bool) : Whole E (prmsBuilder E nbs arg active grp m) := by
  intro s
  have hfin : (prmsBuilder E nbs arg active grp m).after s = (connP E arg grp).after s := by
    unfold prmsBuilder
    rw [after_bind]
    cases hr : (connP E arg grp).res s with
    | ok g =>
      dsimp only
      have hgr : ((connP E arg grp).after s).graph ≠ none := by
        unfold connP at hr ⊢
        split at hr
        · rename_i hgrp
          rw [if_pos hgrp]
          rcases conn5_run E arg true s with ⟨sa, r, _, _, h⟩ | ⟨_, h⟩
          · unfold after; rw [h]; simp [latest, Sm.ofOut]
          · exact absurd hr (h g)
        · rename_i hgrp
          rw [if_neg hgrp]
          rcases conn6_run E arg s with ⟨sa, r, _, _, h⟩ | ⟨_, h⟩
          · unfold after; rw [h]; simp [latest]
          · exact absurd hr (h g)
      rw [after_read_bind]
      dsimp only
      rw [after_bind, cascades_after nbs _ active m false hgr]
      split
      · exact Still.bind (still_source arg) (fun _ => still_pure _) _
      · rfl
    | err e => rfl
    | hang => rfl
  rw [hfin]
  exact whole_connP arg grp s

/-- **C103.**  Whether a call returns or raises, at whatever point: the object is left as it was before the call, or as
after a complete call of `get_stream_connectivity`; for `set_stream_array` and `delineate_streams`, as it was or with the
new array. -/
theorem C103_all_or_nothing (E : Env N) (W : World N K) (c : Call N) (s : Sm N) :
    (∃ r, c = .store r ∧ ((∃ sa, r = .ok sa ∧ (c.prog E W).after s = { s with streamArray := some sa }) ∨
      ((∀ sa, r ≠ .ok sa) ∧ (c.prog E W).after s = s))) ∨
    ((c.prog E W).after s = s ∨ Connects E s ((c.prog E W).after s)) := by
  cases c with
  | store r =>
    left
    refine ⟨r, rfl, ?_⟩
    cases r with
    | ok sa => exact .inl ⟨sa, rfl, rfl⟩
    | err e => exact .inr ⟨fun sa h => (by cases h), rfl⟩
    | hang => exact .inr ⟨fun sa h => (by cases h), rfl⟩
  | conn6 arg => exact .inr ((whole_conn6 arg).bind_still (fun _ => still_pure ()) s)
  | conn5 arg g => exact .inr ((whole_conn5 arg g).bind_still (fun _ => still_pure ()) s)
  | vectors v arg g =>
    exact .inr (((whole_conn5 arg g).bind_still fun _ => still_read _).bind_still (fun _ => still_pure ()) s)
  | connData g =>
    exact .inr (((whole_graphOf g).bind_still fun _ => still_read _).bind_still (fun _ => still_pure ()) s)
  | packageData arg =>
    right
    cases arg with
    | some sa => exact ((whole_conn6 _).bind_still fun _ => still_read _).bind_still (fun _ => still_pure ()) s
    | none =>
      exact ((whole_graphOf none).bind_still fun _ => (still_source none).bind fun _ => still_read _).bind_still
        (fun _ => still_pure ()) s
  | reachData arg g =>
    exact .inr (((whole_ensure arg g).bind_still fun _ => still_read _).bind_still (fun _ => still_pure ()) s)
  | segmentData arg g =>
    exact .inr (((whole_ensure arg g).bind_still fun _ => still_read _).bind_still (fun _ => still_pure ()) s)
  | irun c arg sg g =>
    right
    refine (Still.bind_whole (still_source arg) fun sa => Still.bind_whole (still_read _) fun x =>
      Whole.bind_still ?_ fun _ => still_read _).bind_still (fun _ => still_pure ()) s
    split
    · exact (whole_conn5 _ _).bind_still fun _ => still_source _
    · exact (still_pure _).whole
  | cascades arg a m k => exact .inr ((whole_cascades _ arg a m k).bind_still (fun _ => still_pure ()) s)
  | prmsBuilder arg a g m => exact .inr ((whole_prmsBuilder _ arg a g m).bind_still (fun _ => still_pure ()) s)

omit [Field K] [LinearOrder K] in
/-- a connectivity call that raises leaves the object unchanged -/
theorem C103_connectivity (E : Env N) (arg : Option (Fin N → ℤ)) (grp : Bool) (s : Sm N) :
    ((∀ g, (conn6 E arg).res s ≠ .ok g) → (conn6 E arg).after s = s) ∧
    ((∀ g, (conn5 E arg grp).res s ≠ .ok g) → (conn5 E arg grp).after s = s) := by
  constructor
  · intro h
    rcases conn6_run E arg s with ⟨sa, r, _, _, h'⟩ | ⟨h', _⟩
    · exact absurd (by unfold res; rw [h']) (h r.2)
    · exact after_of_trace h'
  · intro h
    rcases conn5_run E arg grp s with ⟨sa, r, _, _, h'⟩ | ⟨h', _⟩
    · exact absurd (by unfold res; rw [h']) (h r.sg)
    · exact after_of_trace h'

/-! ### Histories without interrupts -/

/-- segment graph and node list are both missing or both from the same connectivity call -/
def NetWhole (E : Env N) (s : Sm N) : Prop :=
  (s.segGraph = none ∧ s.nsr = none) ∨
  ∃ sa grp out, mf2005 E.limit E.fuel E.unstructured E.fdir sa grp = .ok out ∧ s.segGraph = some out.sg ∧
    s.nsr = some out.nsr

omit [Field K] [LinearOrder K] in
theorem Connects.net {s s' : Sm N} (h : Connects E s s') (hs : NetWhole E s) : NetWhole E s' := by
  rcases h with ⟨arg, g, hg, rfl⟩ | ⟨arg, grp, g, hg, rfl⟩
  · rcases conn6_run E arg s with ⟨sa, r, _, _, h⟩ | ⟨_, h⟩
    · have : (conn6 E arg).after s = { s with streamArray := some r.1, graph := some (someVals r.2) } := by
        unfold after; rw [h]; rfl
      rw [this]
      exact hs
    · exact absurd hg (h g)
  · rcases conn5_run E arg grp s with ⟨sa, r, _, hr, h⟩ | ⟨_, h⟩
    · have : (conn5 E arg grp).after s = Sm.ofOut r := by unfold after; rw [h]; rfl
      rw [this]
      exact .inr ⟨sa, grp, r, hr, rfl, rfl⟩
    · exact absurd hg (h g)

/-- **C103, histories.**  After any history of calls, returned or raised, segment graph and node list of the object belong
to the same connectivity call. -/
theorem C103_history (E : Env N) (W : World N K) (h : List (Call N)) {s : Sm N} (hs : NetWhole E s) :
    NetWhole E (history E W s h) := by
  induction h generalizing s with
  | nil => exact hs
  | cons c h ih =>
    refine ih ?_
    show NetWhole E ((c.prog E W).after s)
    rcases C103_all_or_nothing E W c s with ⟨r, _, ⟨sa, _, h⟩ | ⟨_, h⟩⟩ | h | h
    · rw [h]; exact hs
    · rw [h]; exact hs
    · rw [h]; exact hs
    · exact h.net hs

/-- The object as `Rdata` sees it -/
def toObj (E : Env N) (s : Sm N) : Rdata.Obj N :=
  ⟨E.fdir, s.streamArray, s.segGraph.bind fun sg => s.nsr.map fun nsr => (sg, nsr)⟩

omit [Field K] [LinearOrder K] in
theorem NetWhole.sound {s : Sm N} (hE : E.unstructured = false) (h : NetWhole E s) :
    (toObj E s).Sound E.limit E.fuel := by
  intro net hn
  rcases h with ⟨h1, _⟩ | ⟨sa, grp, out, ho, h1, h2⟩
  · simp [toObj, h1] at hn
  · simp [toObj, h1, h2] at hn
    rw [hE] at ho
    exact ⟨sa, grp, out, ho, hn.symm⟩

omit [Field K] [LinearOrder K] in
theorem ensure_run (hE : E.unstructured = false) (arg : Option (Fin N → ℤ)) (grp : Bool) {s : Sm N} (hs : NetWhole E s) :
    (∃ o net, (toObj E s).network E.limit E.fuel arg grp = .ok (o, net) ∧ (ensure E arg grp).res s = .ok () ∧
      o = toObj E ((ensure E arg grp).after s) ∧ ((ensure E arg grp).after s).segGraph = some net.1 ∧
      ((ensure E arg grp).after s).nsr = some net.2) ∨
    (∃ e, (toObj E s).network E.limit E.fuel arg grp = .err e ∧ (ensure E arg grp).res s = .err e) ∨
    ((toObj E s).network E.limit E.fuel arg grp = .hang ∧ (ensure E arg grp).res s = .hang) := by
  have hsrc : (source arg).res s = (toObj E s).source arg := by
    show (match arg with | some sa => _ | none => _) = _
    cases arg <;> rfl
  unfold ensure Rdata.Obj.network
  rw [res_bind, after_bind, hsrc, after_source]
  cases ho : (toObj E s).source arg with
  | ok sa =>
    dsimp only [Res.bind_ok]
    rw [res_read_bind, after_read_bind]
    dsimp only [Res.bind_ok]
    rcases hs with ⟨h1, h2⟩ | ⟨sa', grp', out', ho', h1, h2⟩
    · have hn : (toObj E s).net = none := by simp [toObj, h1]
      rw [h1, hn]
      dsimp only
      unfold Rdata.Obj.connect
      rcases conn5_run E (some sa) grp s with ⟨sa1, out, hsa1, hout, hrun⟩ | ⟨hnil, hne⟩
      · cases hsa1
        rw [hE] at hout
        left
        have hres : (conn5 E (some sa) grp).res s = .ok out.sg := by unfold res; rw [hrun]
        have haft : (conn5 E (some sa) grp).after s = Sm.ofOut out := by unfold after; rw [hrun]; rfl
        obtain ⟨e1, e2⟩ := step (f := fun _ : Dict ℤ ℤ => (pure () : Prog (Sm N) Unit)) hres haft
        rw [e1, e2]
        have hfd : (toObj E s).fdir = E.fdir := rfl
        rw [hfd, hout]
        exact ⟨_, _, rfl, rfl, rfl, rfl, rfl⟩
      · have hfd : (toObj E s).fdir = E.fdir := rfl
        rw [hfd]
        have hres : (conn5 E (some sa) grp).res s =
            (mf2005 E.limit E.fuel E.unstructured E.fdir sa grp).map fun out : Out N => out.sg := by
          unfold conn5
          rw [res_bind]
          show (Res.ok sa).bind _ = _
          rw [Res.bind_ok, res_read_bind]
          cases mf2005 E.limit E.fuel E.unstructured E.fdir sa grp <;> rfl
        rw [hE] at hres
        right
        rw [res_bind, hres]
        cases hm : mf2005 E.limit E.fuel false E.fdir sa grp with
        | ok out => rw [hm] at hres; exact absurd hres (hne _)
        | err e => exact .inl ⟨e, rfl, rfl⟩
        | hang => exact .inr ⟨rfl, rfl⟩
    · have hn : (toObj E s).net = some (out'.sg, out'.nsr) := by simp [toObj, h1, h2]
      rw [h1, hn]
      exact .inl ⟨_, _, rfl, rfl, rfl, h1, h2⟩
  | err e => exact .inr (.inl ⟨e, rfl, rfl⟩)
  | hang => exact .inr (.inr ⟨rfl, rfl⟩)

/-- **C103, what the calls return.**  After any history without interrupts, `reach_data` and `segment_data` return what
the models of `Rdata` say, on an object that meets the assumption (`Sound`) of the theorems about them. -/
theorem C103_tables (E : Env N) (W : World N K) (hE : E.unstructured = false) (h : List (Call N)) (arg : Option (Fin N → ℤ))
    (grp : Bool) :
    let s := history E W Sm.new h
    (toObj E s).Sound E.limit E.fuel ∧
    (reachData E W.sgrid arg grp).res s =
      ((toObj E s).reachData E.limit E.fuel W.sgrid arg grp).map Prod.snd ∧
    (segmentData K E arg grp).res s = ((toObj E s).segmentData K E.limit E.fuel arg grp).map Prod.snd := by
  intro s
  have hs : NetWhole E s := C103_history E W h (.inl ⟨rfl, rfl⟩)
  refine ⟨hs.sound hE, ?_, ?_⟩
  · unfold reachData Rdata.Obj.reachData
    rw [res_seq]
    rcases ensure_run hE arg grp hs with ⟨o, net, h1, h2, _, h4, h5⟩ | ⟨e, h1, h2⟩ | ⟨h1, h2⟩
    · rw [h1, h2, Res.bind_ok, Res.bind_ok, res_read, h4, h5]
      show Rdata.reachTable W.sgrid net.1 net.2 = _
      cases Rdata.reachTable W.sgrid net.1 net.2 <;> rfl
    · rw [h1, h2]; rfl
    · rw [h1, h2]; rfl
  · unfold segmentData Rdata.Obj.segmentData
    rw [res_seq]
    rcases ensure_run hE arg grp hs with ⟨o, net, h1, h2, _, h4, h5⟩ | ⟨e, h1, h2⟩ | ⟨h1, h2⟩
    · rw [h1, h2, Res.bind_ok, res_read, h4]; rfl
    · rw [h1, h2]; rfl
    · rw [h1, h2]; rfl

/-- The object as `Reach` sees it -/
def toReach (E : Env N) (s : Sm N) : Reach.Obj N := ⟨E.fdir, s.streamArray, s.graph⟩

omit [Field K] [LinearOrder K] in
theorem conn6_refines (E : Env N) (arg : Option (Fin N → ℤ)) (s : Sm N) :
    (∃ o g, (toReach E s).connectivity E.limit arg = .ok (o, g) ∧ (conn6 E arg).res s = .ok g ∧
      o = toReach E ((conn6 E arg).after s)) ∨
    (∃ e, (toReach E s).connectivity E.limit arg = .err e ∧ (conn6 E arg).res s = .err e) ∨
    ((toReach E s).connectivity E.limit arg = .hang ∧ (conn6 E arg).res s = .hang) := by
  have hsrc : (source arg).res s = (toReach E s).source arg := by
    show (match arg with | some sa => _ | none => _) = _
    cases arg <;> rfl
  have hfd : (toReach E s).fdir = E.fdir := rfl
  unfold Reach.Obj.connectivity
  rw [← hsrc, hfd]
  cases hsa : (source arg).res s with
  | ok sa =>
    dsimp only [Res.bind_ok]
    have hres : (conn6 E arg).res s = (mf6 E.limit E.fdir sa).map fun r => r.2 := by
      unfold conn6
      rw [res_bind, hsa, Res.bind_ok, res_read_bind]
      cases mf6 E.limit E.fdir sa <;> rfl
    rw [hres]
    cases hm : mf6 E.limit E.fdir sa with
    | ok r =>
      left
      refine ⟨_, _, rfl, rfl, ?_⟩
      rcases conn6_run E arg s with ⟨sa', r', h1, h2, h3⟩ | ⟨_, h⟩
      · rw [hsa] at h1
        cases h1
        rw [hm] at h2
        cases h2
        unfold after
        rw [h3]
        rfl
      · exact absurd (by rw [hres, hm]; rfl) (h r.2)
    | err e => exact .inr (.inl ⟨e, rfl, rfl⟩)
    | hang => exact .inr (.inr ⟨rfl, rfl⟩)
  | err e =>
    refine .inr (.inl ⟨e, rfl, ?_⟩)
    unfold conn6
    rw [res_bind, hsa]; rfl
  | hang =>
    refine .inr (.inr ⟨rfl, ?_⟩)
    unfold conn6
    rw [res_bind, hsa]; rfl

omit [Field K] [LinearOrder K] in
theorem graphOf_refines (E : Env N) (s : Sm N) :
    (∃ o g, (toReach E s).graphOf E.limit = .ok (o, g) ∧ (graphOf E none).res s = .ok g ∧
      o = toReach E ((graphOf E none).after s)) ∨
    (∃ e, (toReach E s).graphOf E.limit = .err e ∧ (graphOf E none).res s = .err e) ∨
    ((toReach E s).graphOf E.limit = .hang ∧ (graphOf E none).res s = .hang) := by
  unfold Reach.Obj.graphOf
  have hg : (toReach E s).graph = s.graph := rfl
  rw [hg]
  have e1 : (graphOf E none).res s = (match s.graph with
      | some g => (pure g : Prog (Sm N) _)
      | none => (conn6 E none).bind fun g => pure (someVals g)).res s := by
    show ((read fun o : Sm N => Res.ok o.graph).bind _).res s = _
    rw [res_read_bind]
    rfl
  have e2 : (graphOf E none).after s = (match s.graph with
      | some g => (pure g : Prog (Sm N) _)
      | none => (conn6 E none).bind fun g => pure (someVals g)).after s := by
    show ((read fun o : Sm N => Res.ok o.graph).bind _).after s = _
    rw [after_read_bind]
    rfl
  rw [e1, e2]
  cases hs : s.graph with
  | some g => exact .inl ⟨_, _, rfl, rfl, rfl⟩
  | none =>
    dsimp only
    rw [res_bind, after_bind]
    rcases conn6_refines E none s with ⟨o, g, h1, h2, h3⟩ | ⟨e, h1, h2⟩ | ⟨h1, h2⟩
    · rw [h1, h2]
      exact .inl ⟨_, _, rfl, rfl, h3⟩
    · rw [h1, h2]; exact .inr (.inl ⟨e, rfl, rfl⟩)
    · rw [h1, h2]; exact .inr (.inr ⟨rfl, rfl⟩)

/-- **C103, what the calls of `Sfr6` return**: `get_stream_connectivity`, `connectiondata` and `packagedata` return what the
models of `Reach` say, in every state. -/
theorem C103_sfr6 (E : Env N) (W : World N K) (s : Sm N) (arg : Option (Fin N → ℤ)) :
    (conn6 E arg).res s = ((toReach E s).connectivity E.limit arg).map Prod.snd ∧
    (connData E none).res s = ((toReach E s).connData E.limit).map Prod.snd ∧
    (packageData E W.sqrt W.grid arg).res s = ((toReach E s).packageData W.sqrt W.grid E.limit arg).map Prod.snd := by
  refine ⟨?_, ?_, ?_⟩
  · rcases conn6_refines E arg s with ⟨o, g, h1, h2, h3⟩ | ⟨e, h1, h2⟩ | ⟨h1, h2⟩ <;> rw [h1, h2] <;> rfl
  · unfold connData Reach.Obj.connData
    rw [res_bind]
    rcases graphOf_refines E s with ⟨o, g, h1, h2, h3⟩ | ⟨e, h1, h2⟩ | ⟨h1, h2⟩
    · rw [h1, h2, Res.bind_ok, Res.bind_ok, res_read]
      cases connectiondata g <;> rfl
    · rw [h1, h2]; rfl
    · rw [h1, h2]; rfl
  · cases arg with
    | some sa =>
      show ((conn6 E (some sa)).bind _).res s = _
      rw [res_bind]
      unfold Reach.Obj.packageData
      dsimp only
      rcases conn6_refines E (some sa) s with ⟨o, g, h1, h2, h3⟩ | ⟨e, h1, h2⟩ | ⟨h1, h2⟩
      · rw [h1, h2, Res.bind_ok, Res.bind_ok, res_read]
        cases packageRows W.sqrt W.grid sa (someVals g) <;> rfl
      · rw [h1, h2]; rfl
      · rw [h1, h2]; rfl
    | none =>
      show ((graphOf E none).bind _).res s = _
      rw [res_bind]
      unfold Reach.Obj.packageData
      dsimp only
      rcases graphOf_refines E s with ⟨o, g, h1, h2, h3⟩ | ⟨e, h1, h2⟩ | ⟨h1, h2⟩
      · rw [h1, h2, Res.bind_ok, Res.bind_ok, res_bind, h3]
        dsimp only
        generalize (graphOf E none).after s = t
        have : (source none).res t = (toReach E t).stream := by
          show (match t.streamArray with | some sa => _ | none => _) = (match t.streamArray with | none => _ | some sa => _)
          cases t.streamArray <;> rfl
        rw [this]
        cases (toReach E t).stream with
        | ok sa =>
          rw [Res.bind_ok, Res.bind_ok, res_read]
          cases packageRows W.sqrt W.grid sa g <;> rfl
        | err e => rfl
        | hang => rfl
      · rw [h1, h2]; rfl
      · rw [h1, h2]; rfl

end Dany.Torn
