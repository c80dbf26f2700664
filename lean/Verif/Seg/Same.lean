import Verif.Seg.Agree
import Verif.Reach.Props

/-!
# C177: MODFLOW 6 and MODFLOW-2005 describe the same streams
-/

namespace Dany.Seg

open Function Reach Topo Relation Flow

variable {N : ℕ} {fdir sa : Fin N → ℤ} {d : Fin N → Fin N} {limit limit' fuel : ℕ} {b : Bool} {out : Out N}

/-- In the segment table, water that leaves reach `r` of segment `s` enters reach `q` of segment `t`: it is the next
reach of the segment, or `r` is the last one and `q` the first of the segment's outseg. -/
def Next (out : Out N) (s r t q : ℤ) : Prop :=
  (t = s ∧ q = r + 1) ∨ (q = 1 ∧ (∀ x, (x, s, r + 1) ∉ out.nsr) ∧ out.sg.get? s = some t)

/-- **C177.**  Both connectivity methods (MODFLOW 6, and MODFLOW-2005 with segments) on the same array: they number the
same cells if every stream cell lies below a headwater, and in any case two cells of the segment table are linked in
the MODFLOW 6 graph exactly if they are linked in the segment table; a cell leads out of one exactly if it leads out
of the other. (stream_util.py:109-312) -/
theorem C177_same (hd : Legal fdir d) (hf : N ≤ fuel) {sa6 : Fin N → ℤ} {g : Dict ℤ ℤ}
    (h6 : mf6 limit fdir sa = .ok (sa6, g)) (h5 : mf2005 limit' fuel b fdir sa true = .ok out) :
    ((∀ n, sa n ≠ 0 → ∃ h, Headwater fdir sa h ∧ ReflTransGen (Feeds fdir sa) h n) →
      ∀ n, sa6 n ≠ 0 ↔ ∃ s r, (n, s, r) ∈ out.nsr) ∧
    (∀ n s r m t q, (n, s, r) ∈ out.nsr → (m, t, q) ∈ out.nsr →
      (g.get? (sa6 n) = some (sa6 m) ↔ Next out s r t q)) ∧
    (∀ n s r, (n, s, r) ∈ out.nsr →
      (g.get? (sa6 n) = some 0 ↔ (∀ x, (x, s, r + 1) ∉ out.nsr) ∧ out.sg.get? s = some 0)) := by
  obtain ⟨hnd, hlist, hrow, hzero, huniq, hprev⟩ := C56_rows hf h5
  obtain ⟨_, _, hk1, hk2⟩ := C58_numbers hf h5
  have hsix : (∀ n, sa n = 0 → sa6 n = 0) ∧ (∀ n, sa n ≠ 0 → 1 ≤ sa6 n) ∧
      (∀ m n, sa m ≠ 0 → sa n ≠ 0 → sa6 m = sa6 n → m = n) ∧
      (∀ n, sa n ≠ 0 → g.get? (sa6 n) = some (sa6 (d n))) := by
    rcases C49_numbering (fdir := fdir) (sa := sa) hd.resolves limit with h | ⟨sa', g', h, a1, a2, a3, _, _, a6⟩
    · rw [h] at h6; cases h6
    · rw [h] at h6
      cases h6
      exact ⟨a1, fun n hn => (a2 n hn).1, a3, a6⟩
  obtain ⟨s0, s1, sinj, sget⟩ := hsix
  have hone : ∀ n s r t q, (n, s, r) ∈ out.nsr → (n, t, q) ∈ out.nsr → s = t ∧ r = q := by
    intro n s r t q h1 h2
    have := List.inj_on_of_nodup_map hnd h1 h2 rfl
    simpa using this
  have hpos : ∀ n s r, (n, s, r) ∈ out.nsr → 1 ≤ s := fun n s r h => ((hk1 s).1 ((hk2 s).2 ⟨n, r, h⟩)).1
  have hlink : ∀ n m, sa n ≠ 0 → sa m ≠ 0 → (g.get? (sa6 n) = some (sa6 m) ↔ Feeds fdir sa n m) := by
    intro n m hn hm
    rw [sget n hn]
    constructor
    · intro h
      have h := Option.some.inj h
      have hdn : sa (d n) ≠ 0 := by
        intro h0
        rw [s0 _ h0] at h
        have := s1 m hm
        omega
      have := sinj _ _ hdn hm h
      exact ⟨hn, hm, by rw [hd n, this]⟩
    · rintro ⟨_, _, h⟩
      rw [hd n] at h
      have : d n = m := Fin.ext (by exact_mod_cast h)
      rw [this]
  have hfun : ∀ n m m', Feeds fdir sa n m → Feeds fdir sa n m' → m = m' := by
    intro n m m' h1 h2
    have := h1.2.2.symm.trans h2.2.2
    exact Fin.ext (by exact_mod_cast this)
  refine ⟨fun hhead n => ?_, fun n s r m t q hn hm => ?_, fun n s r hn => ?_⟩
  · constructor
    · intro h
      have hn : sa n ≠ 0 := fun h0 => h (s0 n h0)
      obtain ⟨⟨x, s, r⟩, ⟨hx, rfl⟩, _⟩ := (C56_partition hf hhead h5 n).1 hn
      exact ⟨s, r, hx⟩
    · rintro ⟨s, r, h⟩
      have := s1 n (hrow n s r h).1
      omega
  · rw [hlink n m (hrow _ _ _ hn).1 (hrow _ _ _ hm).1]
    constructor
    · intro hfe
      rcases C57_outseg hf h5 hn with ⟨m', hm', hfe'⟩ | ⟨hlast, t', ht', ⟨rfl, hno⟩ | ⟨_, m', hfe', hm'⟩⟩
      · obtain rfl := hfun _ _ _ hfe hfe'
        obtain ⟨e1, e2⟩ := hone _ _ _ _ _ hm hm'
        exact .inl ⟨e1, e2⟩
      · exact absurd hfe (hno m)
      · obtain rfl := hfun _ _ _ hfe hfe'
        obtain ⟨e1, e2⟩ := hone _ _ _ _ _ hm hm'
        exact .inr ⟨e2, hlast, by rw [e1]; exact ht'⟩
    · rintro (⟨rfl, rfl⟩ | ⟨rfl, hlast, hsg⟩)
      · rcases C57_outseg hf h5 hn with ⟨m', hm', hfe'⟩ | ⟨hlast, _⟩
        · rw [huniq _ _ _ _ hm hm']; exact hfe'
        · exact absurd hm (hlast m)
      · rcases C57_outseg hf h5 hn with ⟨m', hm', _⟩ | ⟨_, t', ht', ⟨rfl, _⟩ | ⟨_, m', hfe', hm'⟩⟩
        · exact absurd hm' (hlast m')
        · rw [hsg] at ht'
          have := hpos _ _ _ hm
          have := Option.some.inj ht'
          omega
        · rw [hsg] at ht'
          obtain rfl := Option.some.inj ht'
          rw [huniq _ _ _ _ hm hm']; exact hfe'
  · have hsn := (hrow _ _ _ hn).1
    have hout : g.get? (sa6 n) = some 0 ↔ ∀ m, ¬ Feeds fdir sa n m := by
      rw [sget n hsn]
      constructor
      · intro h m hfe
        have hm : d n = m := by
          have := hfe.2.2
          rw [hd n] at this
          exact Fin.ext (by exact_mod_cast this)
        have h := Option.some.inj h
        have := s1 m hfe.2.1
        rw [hm] at h
        omega
      · intro h
        by_cases h0 : sa (d n) = 0
        · rw [s0 _ h0]
        · exact absurd ⟨hsn, h0, hd n⟩ (h (d n))
    rw [hout]
    constructor
    · intro hno
      rcases C57_outseg hf h5 hn with ⟨m', _, hfe'⟩ | ⟨hlast, t', ht', ⟨rfl, _⟩ | ⟨_, m', hfe', _⟩⟩
      · exact absurd hfe' (hno m')
      · exact ⟨hlast, ht'⟩
      · exact absurd hfe' (hno m')
    · rintro ⟨hlast, hsg⟩
      rcases C57_outseg hf h5 hn with ⟨m', hm', _⟩ | ⟨_, t', ht', ⟨_, hno⟩ | ⟨ht0, _⟩⟩
      · exact absurd hm' (hlast m')
      · exact hno
      · rw [hsg] at ht'
        exact absurd (Option.some.inj ht').symm ht0

-- non-vacuity: 0 → 2, 1 → 2, 2 → 3 → 4, cell 4 no stream
def fdM : Fin 5 → ℤ := ![2, 2, 3, 4, 4]
def saM : Fin 5 → ℤ := ![1, 1, 1, 1, 0]
theorem fdM_legal : Legal fdM (![2, 2, 3, 4, 4] : Fin 5 → Fin 5) := by unfold Legal; decide +kernel
theorem fdM_six : (mf6 9 fdM saM) = .ok (![2, 1, 3, 4, 0], [(1, 3), (2, 3), (3, 4), (4, 0)]) := by decide +kernel
theorem fdM_five : (mf2005 9 9 false fdM saM true).map (fun o => (o.nsr, o.sg)) =
    .ok ([(0, 2, 1), (1, 1, 1), (2, 3, 1), (3, 3, 2)], [(2, 3), (1, 3), (3, 0)]) := by decide +kernel

example : ∃ out, mf2005 9 9 false fdM saM true = .ok out ∧ Next out 2 1 3 1 ∧ Next out 3 1 3 2 ∧ ¬ Next out 2 1 1 1 ∧
    ∀ x, (x, 3, 3) ∉ out.nsr := by
  obtain ⟨out, h5, ho⟩ := Res.map_eq_ok.1 fdM_five
  have hn : out.nsr = [(0, 2, 1), (1, 1, 1), (2, 3, 1), (3, 3, 2)] := congrArg Prod.fst ho
  obtain ⟨_, hl, he⟩ := C177_same fdM_legal (by decide) fdM_six h5
  refine ⟨out, h5, (hl 0 2 1 2 3 1 (by rw [hn]; decide) (by rw [hn]; decide)).1 (by decide +kernel),
    (hl 2 3 1 3 3 2 (by rw [hn]; decide) (by rw [hn]; decide)).1 (by decide +kernel), fun h => ?_,
    ((he 3 3 2 (by rw [hn]; decide)).1 (by decide +kernel)).1⟩
  have := (hl 0 2 1 1 1 1 (by rw [hn]; decide) (by rw [hn]; decide)).2 h
  revert this
  decide +kernel

end Dany.Seg
