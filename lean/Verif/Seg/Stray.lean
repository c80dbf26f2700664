import Verif.Seg.Props
import Verif.Seg.Repeat

/-!
# C169: stream cells that belong to no segment
-/

namespace Dany.Seg

open Relation Reach

variable {N : ℕ} {fdir sa : Fin N → ℤ} {limit fuel : ℕ} {b : Bool} {out : Out N}

theorem headFold_keep (dns : List (Fin N)) (l : List (Fin N)) (st : Dict (Fin N) ℤ × ℤ) {h : Fin N} (hl : h ∉ l) :
    (l.foldl (headStep dns) st).1.get? h = st.1.get? h := by
  induction l generalizing st with
  | nil => rfl
  | cons a l ih =>
    rw [List.foldl_cons, ih _ (fun h' => hl (by simp [h']))]
    unfold headStep
    split
    · exact Dict.get?_set_ne _ _ (by rintro rfl; exact hl (by simp))
    · rfl

theorem headFold_first (dns : List (Fin N)) {l : List (Fin N)} (hnd : l.Nodup) {h : Fin N}
    (hf : l.find? (fun n => n ∉ dns) = some h) (D : Dict (Fin N) ℤ) (k : ℤ) :
    (l.foldl (headStep dns) (D, k)).1.get? h = some k := by
  induction l generalizing D with
  | nil => cases hf
  | cons a l ih =>
    rw [List.nodup_cons] at hnd
    rw [List.find?_cons] at hf
    rw [List.foldl_cons]
    by_cases ha : a ∈ dns
    · simp only [ha, not_true_eq_false, decide_false] at hf
      rw [show headStep dns (D, k) a = (D, k) by unfold headStep; rw [if_neg (by simpa using ha)]]
      exact ih hnd.2 hf D
    · simp only [ha, not_false_eq_true, decide_true, Option.some.injEq] at hf
      subst hf
      rw [headFold_keep _ _ _ hnd.1]
      unfold headStep
      rw [if_pos ha]
      exact Dict.get?_set_self _ _ _

theorem confFold_keep (dns : List (Fin N)) (l : List (Fin N)) (st : Dict (Fin N) ℤ × ℤ) {h : Fin N}
    (hh : h ∈ st.1.keys) : (l.foldl (confStep dns) st).1.get? h = st.1.get? h := by
  induction l generalizing st with
  | nil => rfl
  | cons a l ih =>
    rw [List.foldl_cons]
    by_cases hc : dns.count a > 1 ∧ a ∉ st.1.keys
    · have e : confStep dns st a = (st.1.set a st.2, st.2 + 1) := by
        unfold confStep; rw [if_pos hc.1, if_pos hc.2]
      have hne : h ≠ a := by rintro rfl; exact hc.2 hh
      rw [e, ih _ (by
        rw [Dict.mem_keys_iff] at hh ⊢
        obtain ⟨v, hv⟩ := hh
        exact ⟨v, (Dict.get?_set_ne _ _ hne).trans hv⟩)]
      exact Dict.get?_set_ne _ _ hne
    · have e : confStep dns st a = st := by
        unfold confStep
        split
        · split
          · exact absurd ⟨‹_›, ‹_›⟩ hc
          · rfl
        · rfl
      rw [e]; exact ih _ hh

/-- the lowest-numbered headwater is the first segment start to be found -/
theorem starts_first {h : Fin N} (hh : Headwater fdir sa h) (hmin : ∀ h', Headwater fdir sa h' → h ≤ h') :
    (starts fdir sa).get? h = some 1 := by
  have hm : h ∉ nodesDn (cellGraph fdir sa) := by
    rw [mem_nodesDn]; rintro ⟨m, hm⟩; exact hh.2 m hm
  have hf : (cellGraph fdir sa).keys.find? (fun n => n ∉ nodesDn (cellGraph fdir sa)) = some h := by
    rw [cellGraph_keys]
    cases hc : (strmNodes sa).find? (fun n => n ∉ nodesDn (cellGraph fdir sa)) with
    | none =>
      have := List.find?_eq_none.1 hc h (mem_strmNodes.2 hh.1)
      simp [hm] at this
    | some x =>
      have hx := List.find?_some hc
      have hxm := List.mem_of_find?_eq_some hc
      have hxh : Headwater fdir sa x := by
        refine ⟨mem_strmNodes.1 hxm, fun m hm => ?_⟩
        simp only [decide_eq_true_eq] at hx
        exact hx (mem_nodesDn.2 ⟨m, hm⟩)
      have hle := hmin x hxh
      rcases lt_or_eq_of_le hle with hlt | rfl
      · exfalso
        -- cells are looked through in ascending order
        have hsort : (strmNodes sa).Pairwise (· < ·) := by
          unfold strmNodes
          exact (List.pairwise_lt_finRange N).filter _
        obtain ⟨as, bs, e, hno⟩ := (List.find?_eq_some_iff_append.1 hc).2
        have hin := mem_strmNodes.2 hh.1
        rw [e] at hin hsort
        rw [List.pairwise_append] at hsort
        rcases List.mem_append.1 hin with h1 | h1
        · have := hno h h1
          simp [hm] at this
        · rcases List.mem_cons.1 h1 with rfl | h1
          · exact lt_irrefl _ hlt
          · have := List.rel_of_pairwise_cons hsort.2.1 h1
            exact lt_asymm this hlt
      · rfl
  have h1 := headFold_first _ (by rw [cellGraph_keys]; exact strmNodes_nodup sa) hf [] 1
  show (segStarts (cellGraph fdir sa)).get? h = some 1
  unfold segStarts
  rw [confFold_keep _ _ _ (Dict.mem_keys_iff.2 ⟨_, h1⟩), h1]

/-- **C169** (the array).  What the stored array holds at a stream cell that lies on no segment: if it was marked 1 in the
array given, as `delineate_streams` marks stream cells, and there is a headwater, the number of the segment that begins at
the lowest-numbered headwater; if it was marked by a number beyond the segments, nothing. -/
theorem C169_array (hf : N ≤ fuel) (hout : mf2005 limit fuel b fdir sa true = .ok out) {n : Fin N}
    (hn : ∀ s r, (n, s, r) ∉ out.nsr) :
    (∀ h, sa n = 1 → Headwater fdir sa h → (∀ h', Headwater fdir sa h' → h ≤ h') →
      out.sa n = out.sa h ∧ (h, out.sa n, 1) ∈ out.nsr) ∧
    (sa n < 1 ∨ (nSeg fdir sa : ℤ) < sa n → out.sa n = 0) := by
  have hrows := C56_rows hf hout
  have hst := fun h hh => (C57_starts hf hout h).2 hh
  obtain ⟨L, _, hl, hout'⟩ := mf2005_lift hout
  obtain ⟨ss, sn, sa', h1, h2, h3, h4, h5, h6, h7, hb, hx, h8⟩ := grouped_main (fdir := fdir) (sa := sa) hf hl
  have h5' := h5 b
  rw [hout'] at h5'
  have e : out.sa = sa' := by
    unfold reshapeCheck at h5'
    split at h5'
    · cases h5'
    · rw [Res.bind_ok] at h5'
      rw [Res.ok.inj h5']
  have hno : ∀ a, Start fdir sa a → n ∉ seg fdir sa a := by
    intro a ha hna
    obtain ⟨s, r, hr⟩ := (hrows.2.1 n).2 (mem_seg_iff.1 ⟨a, ha, hna⟩)
    exact hn s r hr
  obtain ⟨x1, x2⟩ := hx n hno
  constructor
  · intro h h1n hh hmin
    have hh' : Start fdir sa h := .inl hh
    have e1 : sa' n = sn h := x1 h (by rw [h1n]; exact starts_first hh hmin)
    have e2 : sa' h = sn h := h6 h hh' h (by
      obtain ⟨q, hq⟩ := (seg_path hh').head
      rw [hq]; simp)
    refine ⟨by rw [e, e1, e2], ?_⟩
    obtain ⟨s, hs⟩ := hst h (.inl hh)
    have := (hrows.2.2.1 _ _ _ hs).2.1
    rw [e, e1, ← e2, ← e, this]
    exact hs
  · intro hrange
    rw [e]
    refine x2 fun a ha => ?_
    have hmem := Dict.mem_of_get? ha
    obtain ⟨_, hv, _⟩ := segStarts_ok fdir sa
    have : sa n ∈ (starts fdir sa).map Prod.snd := List.mem_map.2 ⟨_, hmem, rfl⟩
    change sa n ∈ (segStarts (cellGraph fdir sa)).map Prod.snd at this
    rw [hv, List.mem_map] at this
    obtain ⟨i, hi, hie⟩ := this
    have hlen := starts_length (fdir := fdir) (sa := sa)
    change (segStarts (cellGraph fdir sa)).length = _ at hlen
    rw [List.mem_range, hlen] at hi
    omega

end Dany.Seg
