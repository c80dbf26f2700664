import Verif.Vec.Spec

/-!
# The loop of `create_stream_vectors`
-/

namespace Dany.Vec

open Topo Relation

variable {N : ℕ} {V : Type*} {sg : Dict ℤ ℤ} {nsr : List (Fin N × ℤ × ℤ)} {xy : Fin N → V}

theorem Fits.cells_ne (h : Fits sg nsr) {s : ℤ} (hs : s ∈ sg.keys) : cellsOf nsr s ≠ [] := by
  obtain ⟨n, r, hr⟩ := h.rows s hs
  intro he
  have : n ∈ cellsOf nsr s := List.mem_map.2 ⟨(n, s, r), by simp [hr], rfl⟩
  rw [he] at this; cases this

theorem Fits.line_len (h : Fits sg nsr) {s t : ℤ} (hs : sg.get? s = some t) (ht : t ≠ 0) :
    1 < (line sg nsr s).length := by
  have h1 := h.cells_ne (Dict.mem_keys_iff.2 ⟨t, hs⟩)
  have h2 := h.cells_ne ((h.refs s t hs).resolve_left ht)
  have h1' := List.length_pos_iff.2 h1
  have h2' := List.length_pos_iff.2 h2
  unfold line
  rw [hs]
  simp only [if_neg ht, List.length_append, List.length_take]
  unfold cellsOf at h1' h2'
  omega

/-- the state after a segment was handled -/
def after (sg : Dict ℤ ℤ) (nsr : List (Fin N × ℤ × ℤ)) (xy : Fin N → V) (s t : ℤ) (st : VState V) :
    VState V :=
  record xy s (line sg nsr s)
    (if t ≠ 0 ∧ t ∉ st.processed then { st with stack := st.stack ++ [t] } else st)

theorem vecBody_eq (h : Fits sg nsr) {s t : ℤ} (hs : sg.get? s = some t) (st : VState V) :
    vecBody sg nsr xy s st = .ok (after sg nsr xy s t st) := by
  unfold vecBody after
  simp only [Dict.getE, hs, Res.bind_ok]
  by_cases ht : t = 0
  · subst ht
    have : line sg nsr s = cellsOf nsr s := by unfold line cellsOf; rw [hs]; simp
    simp [this]
  · obtain ⟨m, q, hq⟩ := List.exists_cons_of_ne_nil (h.cells_ne ((h.refs s t hs).resolve_left ht))
    have : line sg nsr s = cellsOf nsr s ++ [m] := by
      unfold line
      rw [hs]
      simp only [if_neg ht]
      unfold cellsOf at hq ⊢
      rw [hq]; simp
    simp only [ne_eq, ht, not_false_eq_true, if_true, hq, true_and, this]

/-- what holds while segment `s` is handled; the stack is empty then -/
structure Pre (sg : Dict ℤ ℤ) (nsr : List (Fin N × ℤ × ℤ)) (xy : Fin N → V) (s : ℤ) (st : VState V) :
    Prop where
  stack : st.stack = []
  reached : Reached sg s
  notHead : s ∉ st.heads
  self : s ∈ st.processed → sg.get? s = some s
  nodup : st.heads.Nodup
  heads : ∀ h ∈ st.heads, HeadSeg sg h ∧ h ∉ st.processed
  proc : ∀ p ∈ st.processed, Reached sg p ∧ 1 < (line sg nsr p).length
  vec : ∀ p, st.vectors.get? p = if p ∈ st.processed then some ((line sg nsr p).map xy) else none
  closed : ∀ p ∈ st.processed, ∀ t, sg.get? p = some t → t ≠ 0 →
    t ∈ st.processed ∨ t = s ∨ (line sg nsr t).length ≤ 1
  done : ∀ h, HeadSeg sg h → h ∈ st.heads ∨ h ∈ st.processed ∨ h = s ∨ (line sg nsr h).length ≤ 1

/-- what holds at the top of the loop -/
structure Inv (sg : Dict ℤ ℤ) (nsr : List (Fin N × ℤ × ℤ)) (xy : Fin N → V) (st : VState V) : Prop where
  len : st.stack.length ≤ 1
  stack : ∀ s ∈ st.stack, Reached sg s ∧ (∃ j, sg.get? j = some s) ∧
    (s ∈ st.processed → sg.get? s = some s)
  nodup : st.heads.Nodup
  heads : ∀ h ∈ st.heads, HeadSeg sg h ∧ h ∉ st.processed
  proc : ∀ p ∈ st.processed, Reached sg p ∧ 1 < (line sg nsr p).length
  vec : ∀ p, st.vectors.get? p = if p ∈ st.processed then some ((line sg nsr p).map xy) else none
  closed : ∀ p ∈ st.processed, ∀ t, sg.get? p = some t → t ≠ 0 →
    t ∈ st.processed ∨ t ∈ st.stack ∨ (line sg nsr t).length ≤ 1
  done : ∀ h, HeadSeg sg h → h ∈ st.heads ∨ h ∈ st.processed ∨ (line sg nsr h).length ≤ 1

/-- unprocessed segments -/
def todo (sg : Dict ℤ ℤ) (st : VState V) : ℕ := (sg.keys.filter (fun k => k ∉ st.processed)).length

def measure (sg : Dict ℤ ℤ) (st : VState V) : ℕ := 2 * todo sg st + st.stack.length + st.heads.length

theorem todo_add (h : Fits sg nsr) {s : ℤ} (hs : s ∈ sg.keys) {P : List ℤ} (hP : s ∉ P) :
    (sg.keys.filter (fun k => k ∉ P ++ [s])).length + 1 = (sg.keys.filter (fun k => k ∉ P)).length := by
  have : ∀ l : List ℤ, l.Nodup → s ∈ l →
      (l.filter (fun k => k ∉ P ++ [s])).length + 1 = (l.filter (fun k => k ∉ P)).length := by
    intro l
    induction l with
    | nil => intro _ h; cases h
    | cons a l ih =>
      intro hnd hm
      rw [List.nodup_cons] at hnd
      by_cases ha : a = s
      · subst ha
        have h1 : (a :: l).filter (fun k => k ∉ P ++ [a]) = l.filter (fun k => k ∉ P) := by
          rw [List.filter_cons_of_neg (by simp)]
          apply List.filter_congr
          intro x hx
          have : x ≠ a := by rintro rfl; exact hnd.1 hx
          simp [this]
        rw [h1, List.filter_cons_of_pos (by simpa using hP)]
        simp
      · have hm' : s ∈ l := by simpa [Ne.symm ha] using hm
        have := ih hnd.2 hm'
        by_cases hp : a ∈ P
        · rw [List.filter_cons_of_neg (by simp [hp]), List.filter_cons_of_neg (by simp [hp])]
          exact this
        · rw [List.filter_cons_of_pos (by simp [hp, ha]), List.filter_cons_of_pos (by simp [hp])]
          simp only [List.length_cons]
          omega
  exact this _ h.nodup hs

theorem todo_mem {s : ℤ} {P : List ℤ} (hP : s ∈ P) :
    (sg.keys.filter (fun k => k ∉ P ++ [s])).length = (sg.keys.filter (fun k => k ∉ P)).length := by
  congr 1
  apply List.filter_congr
  intro x _
  by_cases hx : x = s
  · subst hx; simp [hP]
  · simp [hx]

/-- one segment -/
theorem step_ok (h : Fits sg nsr) {s : ℤ} {st : VState V} (hp : Pre sg nsr xy s st) :
    ∃ st', vecBody sg nsr xy s st = .ok st' ∧ Inv sg nsr xy st' ∧
      measure sg st' ≤ measure sg st := by
  obtain ⟨t, ht⟩ := Dict.mem_keys_iff.1 hp.reached.1
  refine ⟨_, vecBody_eq h ht st, ?_⟩
  have hs0 : s ≠ 0 := by rintro rfl; exact h.zero hp.reached.1
  have htR : t ≠ 0 → Reached sg t := by
    intro h0
    obtain ⟨h', hh, hr⟩ := hp.reached.2
    exact ⟨(h.refs s t ht).resolve_left h0, h', hh, hr.tail ⟨hs0, ht⟩⟩
  -- the pushed stack
  by_cases hlen : 1 < (line sg nsr s).length
  · -- recorded
    have hrec : ∀ st0 : VState V, record xy s (line sg nsr s) st0 =
        { st0 with vectors := st0.vectors.set s ((line sg nsr s).map xy), processed := st0.processed ++ [s] } := by
      intro st0
      unfold record
      rw [if_pos (by simpa using hlen)]
    unfold after
    rw [hrec]
    have hheads : ∀ x ∈ st.heads, HeadSeg sg x ∧ x ∉ st.processed ++ [s] := by
      intro x hx
      refine ⟨(hp.heads x hx).1, ?_⟩
      rw [List.mem_append, List.mem_singleton]
      rintro (h1 | rfl)
      · exact (hp.heads x hx).2 h1
      · exact hp.notHead hx
    have hproc : ∀ p ∈ st.processed ++ [s], Reached sg p ∧ 1 < (line sg nsr p).length := by
      intro p hpp
      rcases List.mem_append.1 hpp with h1 | h1
      · exact hp.proc p h1
      · rw [List.mem_singleton] at h1; subst h1; exact ⟨hp.reached, hlen⟩
    have hvec : ∀ p, (st.vectors.set s ((line sg nsr s).map xy)).get? p =
        if p ∈ st.processed ++ [s] then some ((line sg nsr p).map xy) else none := by
      intro p
      rw [Dict.get?_set, hp.vec]
      by_cases hps : p = s
      · subst hps; simp
      · simp [hps]
    have hdone : ∀ x, HeadSeg sg x → x ∈ st.heads ∨ x ∈ st.processed ++ [s] ∨ (line sg nsr x).length ≤ 1 := by
      intro x hx
      rcases hp.done x hx with h1 | h1 | h1 | h1
      · exact .inl h1
      · exact .inr (.inl (by simp [h1]))
      · exact .inr (.inl (by simp [h1]))
      · exact .inr (.inr h1)
    have hclosed : ∀ stk : List ℤ, (t ≠ 0 → t ∈ st.processed ++ [s] ∨ t ∈ stk) →
        ∀ p ∈ st.processed ++ [s], ∀ u, sg.get? p = some u → u ≠ 0 →
          u ∈ st.processed ++ [s] ∨ u ∈ stk ∨ (line sg nsr u).length ≤ 1 := by
      intro stk hstk p hpp u hu hu0
      rcases List.mem_append.1 hpp with h1 | h1
      · rcases hp.closed p h1 u hu hu0 with h2 | h2 | h2
        · exact .inl (by simp [h2])
        · exact .inl (by simp [h2])
        · exact .inr (.inr h2)
      · rw [List.mem_singleton] at h1
        subst h1
        rw [ht] at hu
        cases hu
        rcases hstk hu0 with h2 | h2
        · exact .inl h2
        · exact .inr (.inl h2)
    have htodo : s ∉ st.processed → (sg.keys.filter (fun k => k ∉ st.processed ++ [s])).length + 1 =
        (sg.keys.filter (fun k => k ∉ st.processed)).length := todo_add h hp.reached.1
    split
    · rename_i hpush
      refine ⟨⟨by simp [hp.stack], ?_, hp.nodup, hheads, hproc, hvec, hclosed _ (fun _ => .inr (by simp)),
        hdone⟩, ?_⟩
      · intro x hx
        simp only [hp.stack, List.nil_append, List.mem_singleton] at hx
        subst hx
        refine ⟨htR hpush.1, ⟨s, ht⟩, ?_⟩
        intro hm
        rcases List.mem_append.1 hm with h1 | h1
        · exact absurd h1 hpush.2
        · rw [List.mem_singleton] at h1; rw [h1]; rw [h1] at ht; exact ht
      · have hsp : s ∉ st.processed := by
          intro hm
          have := hp.self hm
          rw [ht] at this
          cases this
          exact hpush.2 hm
        simp only [measure, todo, hp.stack, List.nil_append, List.length_cons, List.length_nil]
        have := htodo hsp
        omega
    · rename_i hpush
      refine ⟨⟨by simp [hp.stack], by simp [hp.stack], hp.nodup, hheads, hproc, hvec, hclosed _ ?_,
        hdone⟩, ?_⟩
      · intro h0
        left
        by_cases hm : t ∈ st.processed
        · simp [hm]
        · exact absurd ⟨h0, hm⟩ hpush
      · simp only [measure, todo]
        by_cases hsp : s ∈ st.processed
        · rw [todo_mem hsp]
        · have := htodo hsp
          omega
  · -- a single cell at the outlet
    have ht0 : t = 0 := by
      by_contra h0
      exact hlen (h.line_len ht h0)
    unfold after record
    rw [if_neg (by simpa using hlen), if_neg (by simp [ht0])]
    refine ⟨⟨by simp [hp.stack], by simp [hp.stack], hp.nodup, hp.heads, hp.proc, hp.vec, ?_, ?_⟩, le_rfl⟩
    · intro p hpp u hu hu0
      rcases hp.closed p hpp u hu hu0 with h2 | h2 | h2
      · exact .inl h2
      · exact .inr (.inr (by rw [h2]; omega))
      · exact .inr (.inr h2)
    · intro x hx
      rcases hp.done x hx with h1 | h1 | h1 | h1
      · exact .inl h1
      · exact .inr (.inl h1)
      · exact .inr (.inr (by rw [h1]; omega))
      · exact .inr (.inr h1)

theorem loop_ok (h : Fits sg nsr) : ∀ (fuel : ℕ) (st : VState V), Inv sg nsr xy st →
    measure sg st < fuel → ∃ vs, vecLoop sg nsr xy fuel st = .ok vs ∧
      ∀ s v, vs.get? s = some v ↔
        Reached sg s ∧ 1 < (line sg nsr s).length ∧ v = (line sg nsr s).map xy := by
  intro fuel
  induction fuel with
  | zero => intro st _ hm; omega
  | succ fuel ih =>
    intro st hi hm
    unfold vecLoop
    cases hst : st.stack with
    | cons s stk =>
      have hstk : stk = [] := by
        have := hi.len
        rw [hst] at this
        simpa using this
      subst hstk
      obtain ⟨r1, ⟨j, hj⟩, r3⟩ := hi.stack s (by simp [hst])
      obtain ⟨st', e, hi', hm'⟩ := step_ok (xy := xy) h (s := s) (st := { st with stack := [] })
        ⟨rfl, r1, fun hc => (hi.heads s hc).1.2 j hj, r3, hi.nodup, hi.heads, hi.proc, hi.vec, (by
          intro p hp u hu hu0
          have := hi.closed p hp u hu hu0
          rw [hst, List.mem_singleton] at this
          exact this), (by
          intro x hx
          rcases hi.done x hx with h1 | h1 | h1
          · exact .inl h1
          · exact .inr (.inl h1)
          · exact .inr (.inr (.inr h1)))⟩
      dsimp only
      rw [e, Res.bind_ok]
      apply ih st' hi'
      have : measure sg { st with stack := [] } < measure sg st := by
        simp only [measure, todo, hst, List.length_cons, List.length_nil]
        omega
      omega
    | nil =>
      dsimp only
      cases hhd : st.heads with
      | cons s hs =>
        have hhead := hi.heads s (by simp [hhd])
        have hnd := hi.nodup
        rw [hhd, List.nodup_cons] at hnd
        obtain ⟨st', e, hi', hm'⟩ := step_ok (xy := xy) h (s := s) (st := { st with heads := hs })
          ⟨hst, ⟨hhead.1.1, s, hhead.1, .refl⟩, hnd.1, fun hc => absurd hc hhead.2, hnd.2,
            fun x hx => hi.heads x (by simp [hhd, hx]), hi.proc, hi.vec, (by
            intro p hp u hu hu0
            have := hi.closed p hp u hu hu0
            rw [hst] at this
            rcases this with h1 | h1 | h1
            · exact .inl h1
            · cases h1
            · exact .inr (.inr h1)), (by
            intro x hx
            rcases hi.done x hx with h1 | h1 | h1
            · rw [hhd] at h1
              rcases List.mem_cons.1 h1 with h1 | h1
              · exact .inr (.inr (.inl h1))
              · exact .inl h1
            · exact .inr (.inl h1)
            · exact .inr (.inr (.inr h1)))⟩
        dsimp only
        rw [show ({ st with stack := [], heads := hs } : VState V) = { st with heads := hs } by rw [hst],
          e, Res.bind_ok]
        apply ih st' hi'
        have : measure sg { st with heads := hs } < measure sg st := by
          simp only [measure, todo, hhd, List.length_cons]
          omega
        omega
      | nil =>
        refine ⟨st.vectors, rfl, ?_⟩
        intro s v
        rw [hi.vec]
        have key : s ∈ st.processed ↔ Reached sg s ∧ 1 < (line sg nsr s).length := by
          refine ⟨hi.proc s, ?_⟩
          rintro ⟨⟨hk, x, hx, hr⟩, hl⟩
          have : s ∈ st.processed ∨ (line sg nsr s).length ≤ 1 := by
            clear hl
            induction hr with
            | refl =>
              rcases hi.done x hx with h1 | h1 | h1
              · rw [hhd] at h1; cases h1
              · exact .inl h1
              · exact .inr h1
            | @tail y z _ hyz ih' =>
              have hyk : y ∈ sg.keys := Dict.mem_keys_iff.2 ⟨z, hyz.2⟩
              have hz0 : z ≠ 0 := by rintro rfl; exact h.zero hk
              rcases ih' hyk with h1 | h1
              · rcases hi.closed y h1 z hyz.2 hz0 with h2 | h2 | h2
                · exact .inl h2
                · rw [hst] at h2; cases h2
                · exact .inr h2
              · have := h.line_len hyz.2 hz0
                omega
          rcases this with h1 | h1
          · exact h1
          · omega
        by_cases hs : s ∈ st.processed
        · rw [if_pos hs, Option.some.injEq]
          exact ⟨fun e => ⟨(key.1 hs).1, (key.1 hs).2, e.symm⟩, fun e => e.2.2.symm⟩
        · rw [if_neg hs]
          exact ⟨fun e => (by cases e), fun e => absurd (key.2 ⟨e.1, e.2.1⟩) hs⟩

theorem mem_headSegs (h : Fits sg nsr) {s : ℤ} : s ∈ headSegs sg ↔ HeadSeg sg s := by
  unfold headSegs HeadSeg
  rw [List.mem_filter]
  simp only [decide_eq_true_eq, Dict.mem_values h.nodup]
  push Not
  rfl

theorem vectorsOf_ok (h : Fits sg nsr) {vfuel : ℕ} (hf : 3 * sg.length < vfuel) :
    ∃ vs, vectorsOf vfuel sg nsr xy = .ok vs ∧
      ∀ s v, vs.get? s = some v ↔
        Reached sg s ∧ 1 < (line sg nsr s).length ∧ v = (line sg nsr s).map xy := by
  unfold vectorsOf
  apply loop_ok h
  · refine ⟨by simp, by simp, ?_, ?_, by simp, by simp, by simp, ?_⟩
    · exact h.nodup.filter _
    · intro x hx
      exact ⟨(mem_headSegs h).1 hx, by simp⟩
    · intro x hx
      exact .inl ((mem_headSegs h).2 hx)
  · have h1 : (headSegs sg).length ≤ sg.length := by
      unfold headSegs
      refine (List.length_filter_le _ _).trans ?_
      simp [Dict.keys]
    have h2 : (sg.keys.filter (fun k => k ∉ ([] : List ℤ))).length ≤ sg.length := by
      refine (List.length_filter_le _ _).trans ?_
      simp [Dict.keys]
    simp only [measure, todo, List.length_nil]
    omega

end Dany.Vec
