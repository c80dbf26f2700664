import Verif.Torn.Props

/-!
# C109: interrupted connectivity calls
-/

namespace Dany.Torn

open Reach Seg Fail Prog Flow

variable {N : ℕ} {K : Type*} {E : Env N}

theorem conn5_ok {sa : Fin N → ℤ} {grp : Bool} {out : Out N}
    (h : mf2005 E.limit E.fuel E.unstructured E.fdir sa grp = .ok out) (s : Sm N) :
    conn5 E (some sa) grp s = ([⟨some out.sa, s.graph, s.segGraph, s.nsr⟩,
        ⟨some out.sa, some (Vec.asGraph out.graph), s.segGraph, s.nsr⟩,
        ⟨some out.sa, some (Vec.asGraph out.graph), some out.sg, s.nsr⟩, Sm.ofOut out], .ok out.sg) := by
  rcases conn5_run E (some sa) grp s with ⟨sa', out', h1, h2, h3⟩ | ⟨_, h'⟩
  · cases h1
    rw [h] at h2
    cases h2
    exact h3
  · exfalso
    have : (conn5 E (some sa) grp).res s = .ok out.sg := by
      unfold conn5
      rw [res_bind]
      show (Res.ok sa).bind _ = _
      rw [Res.bind_ok, res_read_bind, h]
      rfl
    exact h' _ this

theorem conn6_ok {sa : Fin N → ℤ} {r : (Fin N → ℤ) × Dict ℤ ℤ} (h : mf6 E.limit E.fdir sa = .ok r) (s : Sm N) :
    conn6 E (some sa) s = ([{ s with streamArray := some r.1 },
      { s with streamArray := some r.1, graph := some (someVals r.2) }], .ok r.2) := by
  rcases conn6_run E (some sa) s with ⟨sa', r', h1, h2, h3⟩ | ⟨_, h'⟩
  · cases h1
    rw [h] at h2
    cases h2
    exact h3
  · exfalso
    have : (conn6 E (some sa)).res s = .ok r.2 := by
      unfold conn6
      rw [res_bind]
      show (Res.ok sa).bind _ = _
      rw [Res.bind_ok, res_read_bind, h]
      rfl
    exact h' _ this

/-- The calls that do not compute segments anew once a network is stored: all but `get_stream_connectivity` of `Sfr2005`,
`create_stream_vectors` and the builder of `PrmsStreams` -/
def Call.quiet : Call N → Bool
  | .conn5 _ _ => false
  | .vectors _ _ _ => false
  | .prmsBuilder _ _ _ _ => false
  | _ => true

/-- array and cell graph are there, with this segment graph and this node list -/
def Holds (sg : Dict ℤ ℤ) (nsr : List (Fin N × ℤ × ℤ)) (s : Sm N) : Prop :=
  s.streamArray ≠ none ∧ s.graph ≠ none ∧ s.segGraph = some sg ∧ s.nsr = some nsr

theorem Holds.conn6 {sg : Dict ℤ ℤ} {nsr : List (Fin N × ℤ × ℤ)} {s : Sm N} (h : Holds sg nsr s)
    (arg : Option (Fin N → ℤ)) : Holds sg nsr ((conn6 E arg).after s) := by
  rcases conn6_run E arg s with ⟨sa, r, _, _, h1⟩ | ⟨h1, _⟩
  · have : (Torn.conn6 E arg).after s = { s with streamArray := some r.1, graph := some (someVals r.2) } := by
      unfold after; rw [h1]; rfl
    rw [this]
    exact ⟨by simp, by simp, h.2.2.1, h.2.2.2⟩
  · rw [after_of_trace h1]; exact h

theorem after_bind_still {σ α β : Type*} {p : Prog σ α} {f : α → Prog σ β} (hf : ∀ a, Still (f a)) (s : σ) :
    (p.bind f).after s = p.after s := by
  rw [after_bind]
  cases p.res s with
  | ok a => exact hf a _
  | err e => rfl
  | hang => rfl

theorem ensure_still {arg : Option (Fin N → ℤ)} {grp : Bool} {s : Sm N} (h : s.segGraph ≠ none) :
    (ensure E arg grp).after s = s := by
  unfold ensure
  rw [after_bind, after_source]
  cases (source arg).res s with
  | ok sa =>
    dsimp only
    rw [after_read_bind]
    cases hs : s.segGraph with
    | none => exact absurd hs h
    | some sg => rfl
  | err e => rfl
  | hang => rfl

theorem graphOf_still {given : Option (Dict ℤ (Option ℤ))} {s : Sm N} (h : s.graph ≠ none) :
    (graphOf E given).after s = s := by
  cases given with
  | some g => rfl
  | none =>
    show ((read fun o : Sm N => Res.ok o.graph).bind _).after s = s
    rw [after_read_bind]
    cases hs : s.graph with
    | none => exact absurd hs h
    | some sg => rfl

variable [Field K] [LinearOrder K]

theorem Holds.call {sg : Dict ℤ ℤ} {nsr : List (Fin N × ℤ × ℤ)} {s : Sm N} (h : Holds sg nsr s) (W : World N K)
    {c : Call N} (hc : c.quiet = true) : Holds sg nsr ((c.prog E W).after s) := by
  have hsg : s.segGraph ≠ none := by rw [h.2.2.1]; simp
  cases c with
  | store r =>
    cases r with
    | ok sa => exact ⟨by simp [Call.prog, store, after_read_bind], h.2.1, h.2.2.1, h.2.2.2⟩
    | err e => exact h
    | hang => exact h
  | conn6 arg =>
    show Holds sg nsr ((Prog.bind _ _).after s)
    rw [after_bind_still fun _ => still_pure ()]
    exact h.conn6 arg
  | conn5 arg g => simp [Call.quiet] at hc
  | vectors v arg g => simp [Call.quiet] at hc
  | connData g =>
    show Holds sg nsr ((Prog.bind _ _).after s)
    rw [after_bind_still fun _ => still_pure (), connData, after_bind_still fun _ => still_read _,
      graphOf_still h.2.1]
    exact h
  | packageData arg =>
    show Holds sg nsr ((Prog.bind _ _).after s)
    rw [after_bind_still fun _ => still_pure ()]
    cases arg with
    | some sa =>
      show Holds sg nsr ((Prog.bind _ _).after s)
      rw [after_bind_still fun _ => still_read _]
      exact h.conn6 _
    | none =>
      show Holds sg nsr ((Prog.bind _ _).after s)
      rw [after_bind_still fun _ => (still_source none).bind fun _ => still_read _, graphOf_still h.2.1]
      exact h
  | reachData arg g =>
    show Holds sg nsr ((Prog.bind _ _).after s)
    rw [after_bind_still fun _ => still_pure (), reachData, Prog.seq, after_bind_still fun _ => still_read _,
      ensure_still hsg]
    exact h
  | segmentData arg g =>
    show Holds sg nsr ((Prog.bind _ _).after s)
    rw [after_bind_still fun _ => still_pure (), segmentData, Prog.seq, after_bind_still fun _ => still_read _,
      ensure_still hsg]
    exact h
  | irun cf arg given g =>
    show Holds sg nsr ((Prog.bind _ _).after s)
    rw [after_bind_still fun _ => still_pure (), irun, after_bind, after_source]
    cases (source arg).res s with
    | ok sa =>
      dsimp only
      rw [after_read_bind]
      dsimp only
      rw [if_neg (by rw [h.2.2.1]; simp)]
      exact h
    | err e => exact h
    | hang => exact h
  | cascades arg a m k =>
    show Holds sg nsr ((Prog.bind _ _).after s)
    rw [after_bind_still fun _ => still_pure (), cascades_after _ _ _ _ _ h.2.1]
    exact h
  | prmsBuilder arg a g m => simp [Call.quiet] at hc

theorem Holds.history {sg : Dict ℤ ℤ} {nsr : List (Fin N × ℤ × ℤ)} (W : World N K) (l : List (Call N))
    (hl : ∀ c ∈ l, c.quiet = true) {s : Sm N} (h : Holds sg nsr s) : Holds sg nsr (history E W s l) := by
  induction l generalizing s with
  | nil => exact h
  | cons c l ih => exact ih (fun c hc => hl c (by simp [hc])) (h.call W (hl c (by simp)))

/-- **C109, refuted (Sfr2005).**  `get_stream_connectivity` on new stream cells, interrupted just before its last
assignment: from then on, whatever other calls follow, `reach_data` is made from the new segment graph and the old list
of cells, until segments are computed again. -/
theorem C109_mixed_refuted (W : World N K) {sa : Fin N → ℤ} {grp : Bool} {out : Out N}
    (hout : mf2005 E.limit E.fuel E.unstructured E.fdir sa grp = .ok out) {s : Sm N} {old : List (Fin N × ℤ × ℤ)}
    (hold : s.nsr = some old) {l : List (Call N)} (hl : ∀ c ∈ l, c.quiet = true) (arg : Option (Fin N → ℤ)) (g : Bool) :
    (reachData E W.sgrid arg g).res (history E W ((conn5 E (some sa) grp).cut s 3) l) =
      Rdata.reachTable W.sgrid out.sg old := by
  have h0 : (conn5 E (some sa) grp).cut s 3 = ⟨some out.sa, some (Vec.asGraph out.graph), some out.sg, some old⟩ := by
    unfold cut
    rw [conn5_ok hout, ← hold]
    rfl
  rw [h0]
  have h1 := Holds.history (E := E) W l hl (s := ⟨some out.sa, some (Vec.asGraph out.graph), some out.sg, some old⟩)
    ⟨by simp, by simp, rfl, rfl⟩
  generalize history E W _ l = t at h1 ⊢
  obtain ⟨h1, h2, h3, h4⟩ := h1
  unfold reachData
  rw [res_seq, ensure_still (by rw [h3]; simp)]
  have : (ensure E arg g).res t = .ok () := by
    unfold ensure
    rw [res_bind, after_source]
    have : ∃ x, (source arg).res t = .ok x := by
      cases arg with
      | some x => exact ⟨x, rfl⟩
      | none =>
        cases hx : t.streamArray with
        | none => exact absurd hx h1
        | some x => exact ⟨x, by show (match t.streamArray with | some sa => _ | none => _) = _; rw [hx]⟩
    obtain ⟨x, hx⟩ := this
    rw [hx, Res.bind_ok, res_read_bind]
    dsimp only [Res.bind_ok]
    rw [h3]
    rfl
  rw [this, Res.bind_ok, res_read, h3, h4]
  rfl

omit [Field K] [LinearOrder K] in
/-- **C109, refuted (Sfr6).**  Interrupted between its two assignments, the connectivity leaves new reach numbers with the
old graph, and `connectiondata()` keeps describing the old streams. -/
theorem C109_sfr6_refuted {sa : Fin N → ℤ} {r : (Fin N → ℤ) × Dict ℤ ℤ} (h : mf6 E.limit E.fdir sa = .ok r) {s : Sm N}
    {old : Dict ℤ (Option ℤ)} (hold : s.graph = some old) :
    ((conn6 E (some sa)).cut s 1).streamArray = some r.1 ∧
    (connData E none).res ((conn6 E (some sa)).cut s 1) = connectiondata old := by
  have h0 : (conn6 E (some sa)).cut s 1 = { s with streamArray := some r.1 } := by
    unfold cut
    rw [conn6_ok h]
    rfl
  rw [h0]
  refine ⟨rfl, ?_⟩
  have hgo : (graphOf E none).res { s with streamArray := some r.1 } = .ok old := by
    show ((read fun o : Sm N => Res.ok o.graph).bind _).res _ = _
    rw [res_read_bind]
    dsimp only [Res.bind_ok]
    rw [hold]
    rfl
  unfold connData
  rw [res_bind, hgo]
  rfl

/-- **C109, repair (partial).**  After any history, interrupts included, a `get_stream_connectivity` call that is given
the stream cells and returns leaves the array, the graph and (MODFLOW-2005) the whole network as on a new object. -/
theorem C109_repair_partial (W : World N K) (h : List (Call N × Option ℕ)) (s : Sm N) (sa : Fin N → ℤ) (grp : Bool) :
    let t := cutHistory E W s h
    (conn5 E (some sa) grp).res t = (conn5 E (some sa) grp).res Sm.new ∧
    (conn6 E (some sa)).res t = (conn6 E (some sa)).res Sm.new ∧
    (∀ g, (conn5 E (some sa) grp).res t = .ok g →
      (conn5 E (some sa) grp).after t = (conn5 E (some sa) grp).after Sm.new) ∧
    (∀ g, (conn6 E (some sa)).res t = .ok g →
      ((conn6 E (some sa)).after t).streamArray = ((conn6 E (some sa)).after Sm.new).streamArray ∧
      ((conn6 E (some sa)).after t).graph = ((conn6 E (some sa)).after Sm.new).graph) := by
  intro t
  have e5 : ∀ s : Sm N, (conn5 E (some sa) grp).res s =
      (mf2005 E.limit E.fuel E.unstructured E.fdir sa grp).map fun out : Out N => out.sg := by
    intro s
    unfold conn5
    rw [res_bind]
    show (Res.ok sa).bind _ = _
    rw [Res.bind_ok, res_read_bind]
    cases mf2005 E.limit E.fuel E.unstructured E.fdir sa grp <;> rfl
  have e6 : ∀ s : Sm N, (conn6 E (some sa)).res s =
      (mf6 E.limit E.fdir sa).map fun r => r.2 := by
    intro s
    unfold conn6
    rw [res_bind]
    show (Res.ok sa).bind _ = _
    rw [Res.bind_ok, res_read_bind]
    cases mf6 E.limit E.fdir sa <;> rfl
  refine ⟨by rw [e5, e5], by rw [e6, e6], fun g hg => ?_, fun g hg => ?_⟩
  · rw [e5] at hg
    obtain ⟨out, ho, _⟩ := Res.map_eq_ok.1 hg
    unfold after
    rw [conn5_ok ho, conn5_ok ho]
    rfl
  · rw [e6] at hg
    obtain ⟨r, ho, _⟩ := Res.map_eq_ok.1 hg
    unfold after
    rw [conn6_ok ho, conn6_ok ho]
    exact ⟨rfl, rfl⟩

omit [Field K] [LinearOrder K] in
/-- **C109, the first call (partial).**  Interrupting the first `get_stream_connectivity()` of an `Sfr6` object anywhere
does no harm: the next call returns the same graph and leaves the same object. -/
theorem C109_first_partial {d : Fin N → Fin N} (hd : Resolves E.fdir d) {s : Sm N} {g : Dict ℤ ℤ}
    (hs : s.graph = none) (h : (conn6 E none).res s = .ok g) (k : ℕ) :
    (conn6 E none).res ((conn6 E none).cut s k) = .ok g ∧
    (conn6 E none).after ((conn6 E none).cut s k) = (conn6 E none).after s ∧
    (connData E none).res ((conn6 E none).cut s k) = (connData E none).res s := by
  have hcd : ∀ t : Sm N, (conn6 E none).res t = .ok g → (t.graph = none ∨ t.graph = some (someVals g)) →
      (connData E none).res t = connectiondata (someVals g) := by
    intro t ht hg
    have hgo : (graphOf E none).res t = .ok (someVals g) := by
      show ((read fun o : Sm N => Res.ok o.graph).bind _).res t = _
      rw [res_read_bind]
      dsimp only [Res.bind_ok]
      rcases hg with hg | hg
      · rw [hg]
        dsimp only
        rw [res_bind, ht]
        rfl
      · rw [hg]; rfl
    unfold connData
    rw [res_bind, hgo]
    rfl
  rcases conn6_run E none s with ⟨sa, r, h1, h2, h3⟩ | ⟨_, h'⟩
  · have hr : r.2 = g := by
      have : (conn6 E none).res s = .ok r.2 := by unfold res; rw [h3]
      rw [h] at this
      cases this; rfl
    subst hr
    have hrep := C51_repeatable hd (sa' := r.1) (g := r.2) h2
    have haft : (conn6 E none).after s = { s with streamArray := some r.1, graph := some (someVals r.2) } := by
      unfold after; rw [h3]; rfl
    have hnew : ∀ t : Sm N, t.streamArray = some r.1 → conn6 E none t = ([{ t with streamArray := some r.1 },
        { t with streamArray := some r.1, graph := some (someVals r.2) }], .ok r.2) := by
      intro t ht
      rw [← conn6_ok hrep t]
      unfold conn6 source
      rw [Prog.bind, Prog.bind]
      simp only [Prog.read, ht]
    match k with
    | 0 =>
      rw [cut_zero]
      exact ⟨h, rfl, rfl⟩
    | 1 =>
      have hc : (conn6 E none).cut s 1 = { s with streamArray := some r.1 } := by unfold cut; rw [h3]; rfl
      rw [hc, haft]
      have := hnew { s with streamArray := some r.1 } rfl
      have hres : (conn6 E none).res { s with streamArray := some r.1 } = .ok r.2 := by unfold res; rw [this]
      refine ⟨hres, by unfold after; rw [this]; rfl, ?_⟩
      rw [hcd _ hres (.inl hs), hcd _ h (.inl hs)]
    | k + 2 =>
      have hc : (conn6 E none).cut s (k + 2) = { s with streamArray := some r.1, graph := some (someVals r.2) } := by
        unfold cut; rw [h3]; simp [latest]
      rw [hc, haft]
      have := hnew { s with streamArray := some r.1, graph := some (someVals r.2) } rfl
      have hres : (conn6 E none).res { s with streamArray := some r.1, graph := some (someVals r.2) } = .ok r.2 := by
        unfold res; rw [this]
      refine ⟨hres, by unfold after; rw [this]; rfl, ?_⟩
      rw [hcd _ hres (.inr rfl), hcd _ h (.inl hs)]
  · exact absurd h (h' g)

/-! ### A concrete run -/

/-- four cells in a row draining to the right -/
def E4 : Env 4 := ⟨![1, 2, 3, -1], false, 10, 10⟩

def G4 : Rdata.SGrid 4 ℚ :=
  ⟨4, ![0, 1, 2, 3], ![0, 0, 0, 0], ![some 10, some 9, some 8, some 7], fun _ => 1, fun _ => 1, fun x => x⟩

/-- connected with the streams in cells 1, 2 and 3 -/
def before : Sm 4 := (conn5 E4 (some ![0, 1, 1, 1]) false).after Sm.new

/-- then connected with the streams in cells 2 and 3 only, but interrupted before the last assignment -/
def torn : Sm 4 := (conn5 E4 (some ![0, 0, 1, 1]) false).cut before 3

/-- the same, not interrupted -/
def whole : Sm 4 := (conn5 E4 (some ![0, 0, 1, 1]) false).after before

/-- **C109 is false**: the reach table silently lists cells 1 and 2 instead of 2 and 3. -/
theorem C109_refuted :
    (((reachData E4 G4 none false).res torn).map fun t => t.map fun r => (r.node, r.iseg)) = .ok [(1, 1), (2, 2)] ∧
    (((reachData E4 G4 none false).res whole).map fun t => t.map fun r => (r.node, r.iseg)) = .ok [(2, 1), (3, 2)] := by
  decide +kernel

/-- the hypotheses of `C109_mixed_refuted` hold here -/
example : ∃ out, mf2005 E4.limit E4.fuel E4.unstructured E4.fdir ![0, 0, 1, 1] false = .ok out ∧
    before.nsr = some [(1, 1, 1), (2, 2, 1), (3, 3, 1)] ∧ out.sg = [(1, 2), (2, 0)] := by
  have h : (mf2005 E4.limit E4.fuel E4.unstructured E4.fdir ![0, 0, 1, 1] false).map (fun out => out.sg) =
      .ok [(1, 2), (2, 0)] := by decide +kernel
  obtain ⟨out, h1, h2⟩ := Res.map_eq_ok.1 h
  exact ⟨out, h1, by decide +kernel, h2⟩

/-- an exception after the connectivity has been stored (C103): `reach_data` raises, the network stays -/
example : ((reachData E4 G4 (some ![1, 1, 0, 0]) true).res Sm.new).map (fun t => t.length) = .err .keyError ∧
    ((reachData E4 G4 (some ![1, 1, 0, 0]) true).after Sm.new).segGraph = some [(1, 0)] ∧
    ((reachData E4 G4 (some ![1, 1, 0, 0]) true).after Sm.new).nsr = some [(0, 1, 1), (1, 1, 2)] := by
  decide +kernel

/-- the hypotheses of `C109_first_partial` hold for a new object with stream cells -/
example : Resolves E4.fdir (![1, 2, 3, 3] : Fin 4 → Fin 4) ∧
    (conn6 E4 none).res ⟨some ![0, 1, 1, 1], none, none, none⟩ = .ok [(1, 2), (2, 3), (3, 3)] := by
  refine ⟨by intro n; revert n; decide +kernel, by decide +kernel⟩

end Dany.Torn
