import Verif.Dirs.Renumber
import Verif.Basin.Props
import Verif.Acc.Props
import Verif.Delin.Props
import Verif.Reach.Props
import Verif.Seg.Same

/-!
# C190, C191: what the numbering of the cells does to catchments and streams

Cell `n` of the one grid is cell `σ n` of the other.
-/

namespace Dany.Pipe

open Dany.Flow

variable {N : ℕ} {K : Type*} {σ : Fin N ≃ Fin N} {fdir fdir' : Fin N → ℤ} {d d' : Fin N → Fin N}

/-- The same flow directions for two numberings of the cells.  This is what C135 says of `flow_directions` on DEMs
without ties. -/
def SameFlow (σ : Fin N ≃ Fin N) (fdir fdir' : Fin N → ℤ) : Prop :=
  ∀ n m : Fin N, fdir n = ((m : ℕ) : ℤ) ↔ fdir' (σ n) = ((σ m : ℕ) : ℤ)

theorem same_step (h : SameFlow σ fdir fdir') (hd : Legal fdir d) (hd' : Legal fdir' d') (n : Fin N) :
    d' (σ n) = σ (d n) := by
  have := (h n (d n)).1 (hd n)
  rw [hd'] at this
  exact Fin.ext (by exact_mod_cast this)

theorem same_iter (h : SameFlow σ fdir fdir') (hd : Legal fdir d) (hd' : Legal fdir' d') (k : ℕ) (n : Fin N) :
    d'^[k] (σ n) = σ (d^[k] n) := by
  induction k generalizing n with
  | zero => rfl
  | succ k ih => rw [Function.iterate_succ_apply, Function.iterate_succ_apply, same_step h hd hd', ih]

theorem same_reaches (h : SameFlow σ fdir fdir') (hd : Legal fdir d) (hd' : Legal fdir' d') (u p : Fin N) :
    Reaches d' (σ u) (σ p) ↔ Reaches d u p := by
  unfold Reaches
  exact exists_congr fun k => by rw [same_iter h hd hd']; exact σ.injective.eq_iff

theorem same_onCycle (h : SameFlow σ fdir fdir') (hd : Legal fdir d) (hd' : Legal fdir' d') (n : Fin N) :
    OnCycle d' (σ n) ↔ OnCycle d n := by
  unfold OnCycle
  rw [same_step h hd hd', σ.injective.ne_iff]
  exact and_congr_right fun _ => exists_congr fun k => by rw [same_iter h hd hd']; exact σ.injective.eq_iff

private theorem upstream_map (h : SameFlow σ fdir fdir') (hd : Legal fdir d) (hd' : Legal fdir' d') (n : Fin N) :
    upstream d' (σ n) = (upstream d n).map σ.toEmbedding := by
  ext u
  obtain ⟨u, rfl⟩ := σ.surjective u
  rw [mem_upstream, same_reaches h hd hd', ← mem_upstream]
  simp [σ.injective.eq_iff]

/-- **C190**, accumulation (off circles). -/
theorem C190_accumulation [Field K] (h : SameFlow σ fdir fdir') (hd : Legal fdir d) (hd' : Legal fdir' d')
    {area area' : Fin N → K} (harea : ∀ n, area' (σ n) = area n) {asCells : Bool} {fuel fuel' : ℕ} {a a' : Fin N → K}
    (ha : Acc.flowAccumulation fuel fdir area asCells = .ok a)
    (ha' : Acc.flowAccumulation fuel' fdir' area' asCells = .ok a') (n : Fin N) (hn : ¬ OnCycle d n) :
    a' (σ n) = a n := by
  have e := Acc.C32_upstream_sum hd.resolves ha n hn
  have e' := Acc.C32_upstream_sum hd'.resolves ha' (σ n) (fun hc => hn ((same_onCycle h hd hd' n).1 hc))
  cases asCells
  · rw [e.1 rfl, e'.1 rfl, upstream_map h hd hd', Finset.sum_map]
    exact Finset.sum_congr rfl fun u _ => harea u
  · rw [e.2 rfl, e'.2 rfl, upstream_map h hd hd', Finset.card_map]

/-- **C190**, watershed. -/
theorem C190_watershed (h : SameFlow σ fdir fdir') (hd : Legal fdir d) (hd' : Legal fdir' d')
    {p : Fin N} {fuel fuel' : ℕ} (hf : 2 * N < fuel) (hf' : 2 * N < fuel') {t t' : Basin.State N} {w w' : Fin N → ℕ}
    (hw : Basin.watershed fuel ⟨fdir, none⟩ p (fun _ => 0) = .ok (t, w))
    (hw' : Basin.watershed fuel' ⟨fdir', none⟩ (σ p) (fun _ => 0) = .ok (t', w')) (n : Fin N) : w' (σ n) = w n := by
  obtain ⟨_, _, e, hs⟩ := Basin.C36_watershed (s := ⟨fdir, none⟩) hd.resolves rfl p hf
  obtain ⟨_, _, e', hs'⟩ := Basin.C36_watershed (s := ⟨fdir', none⟩) hd'.resolves rfl (σ p) hf'
  rw [hw] at e
  rw [hw'] at e'
  cases e
  cases e'
  by_cases hr : Reaches d n p
  · rw [(hs n).1 hr, (hs' (σ n)).1 ((same_reaches h hd hd' n p).2 hr)]
  · rw [(hs n).2 hr, (hs' (σ n)).2 (fun hc => hr ((same_reaches h hd hd' n p).1 hc))]

/-- **C190**, stream cells. -/
theorem C190_streams [Field K] [LinearOrder K] {facc facc' : Fin N → Option K} (hfacc : ∀ n, facc' (σ n) = facc n)
    {o o' o1 o1' : Reach.Obj N} {c : K} {sa sa' : Fin N → ℤ}
    (hs : Delin.delineate facc o (.number c) none = .ok (o1, sa))
    (hs' : Delin.delineate facc' o' (.number c) none = .ok (o1', sa')) (n : Fin N) : sa' (σ n) = sa n := by
  obtain ⟨x, e, hx⟩ := Delin.C44_number (facc := facc) (o := o) c
  obtain ⟨x', e', hx'⟩ := Delin.C44_number (facc := facc') (o := o') c
  rw [hs] at e
  rw [hs'] at e'
  cases e
  cases e'
  have := (hx' (σ n)).2
  rw [hfacc, ← (hx n).2] at this
  have h1 := (hx n).1
  have h2 := (hx' (σ n)).1
  clear hx hx' hs hs'
  omega

/-- **C190**, MODFLOW 6: reaches get other numbers, but the same cells are linked, and water leaves the network at
the same cells. -/
theorem C190_mf6 (h : SameFlow σ fdir fdir') (hd : Legal fdir d) (hd' : Legal fdir' d') {sa sa' : Fin N → ℤ}
    (hsa : ∀ n, sa' (σ n) = sa n) {limit limit' : ℕ} {r r' : Fin N → ℤ} {g g' : Dict ℤ ℤ}
    (hm : Reach.mf6 limit fdir sa = .ok (r, g)) (hm' : Reach.mf6 limit' fdir' sa' = .ok (r', g')) (n : Fin N) :
    (r' (σ n) = 0 ↔ r n = 0) ∧
    (r n ≠ 0 → (∀ m, r m ≠ 0 → (g'.get? (r' (σ n)) = some (r' (σ m)) ↔ g.get? (r n) = some (r m))) ∧
      (g'.get? (r' (σ n)) = some 0 ↔ g.get? (r n) = some 0)) := by
  have spec : ∀ {fdir sa : Fin N → ℤ} {d : Fin N → Fin N} {limit : ℕ} {r : Fin N → ℤ} {g : Dict ℤ ℤ}, Legal fdir d →
      Reach.mf6 limit fdir sa = .ok (r, g) → (∀ n, r n = 0 ↔ sa n = 0) ∧
      (∀ m n, sa m ≠ 0 → sa n ≠ 0 → r m = r n → m = n) ∧ (∀ n, sa n ≠ 0 → g.get? (r n) = some (r (d n))) := by
    intro fdir sa d limit r g hd hm
    rcases Reach.C49_numbering (fdir := fdir) (sa := sa) hd.resolves limit with e | ⟨_, _, e, a1, a2, a3, _, _, a6⟩
    · rw [e] at hm; cases hm
    · rw [e] at hm
      cases hm
      exact ⟨fun n => ⟨fun h0 => by_contra fun hn => by have := (a2 n hn).1; omega, a1 n⟩, a3, a6⟩
  obtain ⟨z, inj, lk⟩ := spec hd hm
  obtain ⟨z', inj', lk'⟩ := spec hd' hm'
  refine ⟨by rw [z, z', hsa], fun hn => ?_⟩
  have hn1 : sa n ≠ 0 := fun h0 => hn ((z n).2 h0)
  rw [lk n hn1, lk' (σ n) (by rwa [hsa]), same_step h hd hd']
  constructor
  · intro m hm
    have hm1 : sa m ≠ 0 := fun h0 => hm ((z m).2 h0)
    simp only [Option.some.injEq]
    constructor
    · intro e
      by_cases h0 : sa (d n) = 0
      · have : r' (σ (d n)) = 0 := (z' _).2 (by rw [hsa]; exact h0)
        exact absurd ((z' _).1 (e.symm.trans this)) (by rwa [hsa])
      · rw [σ.injective (inj' _ _ (by rwa [hsa]) (by rwa [hsa]) e)]
    · intro e
      by_cases h0 : sa (d n) = 0
      · exact absurd ((z _).1 (e.symm.trans ((z _).2 h0))) hm1
      · rw [inj _ _ h0 hm1 e]
  · simp only [Option.some.injEq]
    rw [z, z', hsa]

/-! ### MODFLOW-2005 -/

open Seg in
private theorem feeds (h : SameFlow σ fdir fdir') {sa sa' : Fin N → ℤ} (hsa : ∀ n, sa' (σ n) = sa n) (a b : Fin N) :
    Feeds fdir' sa' (σ a) (σ b) ↔ Feeds fdir sa a b := by
  unfold Feeds
  rw [hsa, hsa, h a b]

open Seg in
private theorem start (h : SameFlow σ fdir fdir') {sa sa' : Fin N → ℤ} (hsa : ∀ n, sa' (σ n) = sa n) (n : Fin N) :
    (Headwater fdir' sa' (σ n) ∨ Confluence fdir' sa' (σ n)) ↔ (Headwater fdir sa n ∨ Confluence fdir sa n) := by
  unfold Headwater Confluence
  refine or_congr (and_congr (by rw [hsa]) ?_) ?_
  · refine ⟨fun hh m hm => hh (σ m) ((feeds h hsa _ _).2 hm), fun hh m hm => ?_⟩
    obtain ⟨m, rfl⟩ := σ.surjective m
    exact hh m ((feeds h hsa _ _).1 hm)
  · constructor
    · rintro ⟨a, b, hne, ha, hb⟩
      obtain ⟨a, rfl⟩ := σ.surjective a
      obtain ⟨b, rfl⟩ := σ.surjective b
      exact ⟨a, b, fun e => hne (by rw [e]), (feeds h hsa _ _).1 ha, (feeds h hsa _ _).1 hb⟩
    · rintro ⟨a, b, hne, ha, hb⟩
      exact ⟨σ a, σ b, σ.injective.ne hne, (feeds h hsa _ _).2 ha, (feeds h hsa _ _).2 hb⟩

open Seg in
private theorem row_unique {sa : Fin N → ℤ} {limit fuel : ℕ} {b : Bool} {out : Out N} (hf : N ≤ fuel)
    (hout : mf2005 limit fuel b fdir sa true = .ok out) {n : Fin N} {s r s' r' : ℤ} (h1 : (n, s, r) ∈ out.nsr)
    (h2 : (n, s', r') ∈ out.nsr) : s = s' ∧ r = r' := by
  have := List.inj_on_of_nodup_map (C56_rows hf hout).1 h1 h2 rfl
  simpa using this

open Seg in
/-- every reach of the one table has the same place in a segment of the other; cells of one segment in one segment -/
private theorem rows_map (h : SameFlow σ fdir fdir') {sa sa' : Fin N → ℤ} (hsa : ∀ n, sa' (σ n) = sa n)
    {limit limit' fuel fuel' : ℕ} {b b' : Bool} {out out' : Out N} (hf : N ≤ fuel) (hf' : N ≤ fuel')
    (hout : mf2005 limit fuel b fdir sa true = .ok out) (hout' : mf2005 limit' fuel' b' fdir' sa' true = .ok out')
    (s : ℤ) : ∃ s', ∀ n r, (n, s, r) ∈ out.nsr → (σ n, s', r) ∈ out'.nsr := by
  obtain ⟨_, _, hrow, _, huniq, hprev⟩ := C56_rows hf hout
  by_cases he : ∃ c, (c, s, 1) ∈ out.nsr
  · obtain ⟨c, hc⟩ := he
    obtain ⟨s', hs'⟩ := (C57_starts hf' hout' (σ c)).2 ((start h hsa c).2 ((C57_starts hf hout c).1 ⟨s, hc⟩))
    refine ⟨s', ?_⟩
    have key : ∀ k : ℕ, ∀ n, (n, s, (k : ℤ) + 1) ∈ out.nsr → (σ n, s', (k : ℤ) + 1) ∈ out'.nsr := by
      intro k
      induction k with
      | zero =>
        intro n hn
        rw [huniq n c s 1 (by simpa using hn) hc]
        simpa using hs'
      | succ k ih =>
        intro n hn
        obtain ⟨m, hm, hfd⟩ := hprev n s _ hn (by push_cast; omega)
        have hm' := ih m (by simpa using hm)
        rcases C57_outseg hf' hout' hm' with ⟨x, hx, hfx⟩ | ⟨_, t, _, ⟨_, hno⟩ | ⟨_, x, hfx, hx⟩⟩
        · have : x = σ n := Fin.ext (by
            have h1 := hfx.2.2
            rw [((feeds h hsa m n).2 hfd).2.2] at h1
            exact_mod_cast h1.symm)
          rw [this] at hx
          exact_mod_cast hx
        · exact absurd ((feeds h hsa m n).2 hfd) (hno _)
        · have : x = σ n := Fin.ext (by
            have h1 := hfx.2.2
            rw [((feeds h hsa m n).2 hfd).2.2] at h1
            exact_mod_cast h1.symm)
          rw [this] at hx
          obtain ⟨s2, hs2⟩ := (C57_starts hf hout n).2 ((start h hsa n).1 ((C57_starts hf' hout' (σ n)).1 ⟨t, hx⟩))
          have := (row_unique hf hout hn hs2).2
          push_cast at this
          omega
    intro n r hn
    obtain ⟨_, _, h1⟩ := hrow n s r hn
    have := key (r - 1).toNat n (by rw [show ((r - 1).toNat : ℤ) + 1 = r by omega]; exact hn)
    rwa [show ((r - 1).toNat : ℤ) + 1 = r by omega] at this
  · -- no first reach: no reach at all
    refine ⟨0, fun n r hn => absurd ?_ he⟩
    obtain ⟨_, _, h1⟩ := hrow n s r hn
    have key : ∀ k : ℕ, ∀ n, (n, s, (k : ℤ) + 1) ∈ out.nsr → ∃ c, (c, s, 1) ∈ out.nsr := by
      intro k
      induction k with
      | zero => intro n hn; exact ⟨n, by simpa using hn⟩
      | succ k ih =>
        intro n hn
        obtain ⟨m, hm, _⟩ := hprev n s _ hn (by push_cast; omega)
        exact ih m (by simpa using hm)
    exact key (r - 1).toNat n (by rw [show ((r - 1).toNat : ℤ) + 1 = r by omega]; exact hn)

private theorem SameFlow.symm (h : SameFlow σ fdir fdir') : SameFlow σ.symm fdir' fdir := by
  intro n m
  obtain ⟨n, rfl⟩ := σ.surjective n
  obtain ⟨m, rfl⟩ := σ.surjective m
  rw [σ.symm_apply_apply, σ.symm_apply_apply, h n m]

open Seg in
/-- **C191.**  The segments of MODFLOW-2005 get other numbers `f`, a permutation of `1..k`, and nothing else changes:
the same cells form a segment, in the same order, and the segments are linked in the same way. -/
theorem C191_segments (h : SameFlow σ fdir fdir') {sa sa' : Fin N → ℤ} (hsa : ∀ n, sa' (σ n) = sa n)
    {limit limit' fuel fuel' : ℕ} {b b' : Bool} {out out' : Out N} (hf : N ≤ fuel) (hf' : N ≤ fuel')
    (hout : mf2005 limit fuel b fdir sa true = .ok out) (hout' : mf2005 limit' fuel' b' fdir' sa' true = .ok out') :
    ∃ f : ℤ → ℤ, f 0 = 0 ∧
      (∀ s, s ∈ out.sg.keys ↔ f s ∈ out'.sg.keys) ∧ (∀ s ∈ out.sg.keys, ∀ t ∈ out.sg.keys, f s = f t → s = t) ∧
      (∀ t ∈ out'.sg.keys, ∃ s ∈ out.sg.keys, f s = t) ∧
      (∀ n s r, (n, s, r) ∈ out.nsr ↔ (σ n, f s, r) ∈ out'.nsr ∧ s ∈ out.sg.keys) ∧
      (∀ s ∈ out.sg.keys, ∀ t, out.sg.get? s = some t → out'.sg.get? (f s) = some (f t)) := by
  classical
  have hsa2 : ∀ n, sa (σ.symm n) = sa' n := fun n => by rw [← hsa, σ.apply_symm_apply]
  obtain ⟨_, _, hk1, hk2⟩ := C58_numbers hf hout
  obtain ⟨_, _, hk1', hk2'⟩ := C58_numbers hf' hout'
  choose F hF using rows_map h hsa hf hf' hout hout'
  choose F' hF' using rows_map h.symm hsa2 hf' hf hout' hout
  -- the last row of a segment
  have h0 : (0 : ℤ) ∉ out.sg.keys := fun hc => by have := (hk1 0).1 hc; omega
  have h0' : (0 : ℤ) ∉ out'.sg.keys := fun hc => by have := (hk1' 0).1 hc; omega
  let f : ℤ → ℤ := fun s => if s ∈ out.sg.keys then F s else 0
  have hf1 : ∀ s, s ∈ out.sg.keys → f s = F s := fun s hs => if_pos hs
  have key : ∀ s, s ∈ out.sg.keys → F s ∈ out'.sg.keys ∧ F' (F s) = s := by
    intro s hs
    obtain ⟨n, r, hn⟩ := (hk2 s).1 hs
    have hn' := hF s n r hn
    refine ⟨(hk2' _).2 ⟨_, _, hn'⟩, ?_⟩
    have := hF' (F s) (σ n) r hn'
    rw [σ.symm_apply_apply] at this
    exact (row_unique hf hout hn this).1.symm
  have key' : ∀ s, s ∈ out'.sg.keys → F' s ∈ out.sg.keys ∧ F (F' s) = s := by
    intro s hs
    obtain ⟨n, r, hn⟩ := (hk2' s).1 hs
    have hn' := hF' s n r hn
    refine ⟨(hk2 _).2 ⟨_, _, hn'⟩, ?_⟩
    have := hF (F' s) (σ.symm n) r hn'
    rw [σ.apply_symm_apply] at this
    exact (row_unique hf' hout' hn this).1.symm
  have hrows : ∀ n s r, (n, s, r) ∈ out.nsr ↔ (σ n, f s, r) ∈ out'.nsr ∧ s ∈ out.sg.keys := by
    intro n s r
    constructor
    · intro hn
      have hs := (hk2 s).2 ⟨n, r, hn⟩
      rw [hf1 s hs]
      exact ⟨hF s n r hn, hs⟩
    · rintro ⟨hn, hs⟩
      rw [hf1 s hs] at hn
      have := hF' _ _ _ hn
      rwa [σ.symm_apply_apply, (key s hs).2] at this
  refine ⟨f, if_neg h0, ?_, ?_, ?_, hrows, ?_⟩
  · intro s
    refine ⟨fun hs => by rw [hf1 s hs]; exact (key s hs).1, fun hs => by_contra fun hc => h0' ?_⟩
    rwa [show f s = 0 from if_neg hc] at hs
  · intro s hs t ht e
    rw [hf1 s hs, hf1 t ht] at e
    rw [← (key s hs).2, ← (key t ht).2, e]
  · intro t ht
    exact ⟨F' t, (key' t ht).1, by rw [hf1 _ (key' t ht).1]; exact (key' t ht).2⟩
  · intro s hs t ht
    -- a row with no following row in its segment
    obtain ⟨n, r, hn, hlast⟩ : ∃ n r, (n, s, r) ∈ out.nsr ∧ ∀ m, (m, s, r + 1) ∉ out.nsr := by
      by_contra hc
      push Not at hc
      obtain ⟨n, r, hn⟩ := (hk2 s).1 hs
      have all : ∀ k : ℕ, ∃ m, (m, s, r + k) ∈ out.nsr := by
        intro k
        induction k with
        | zero => exact ⟨n, by simpa using hn⟩
        | succ k ih =>
          obtain ⟨m, hm⟩ := ih
          obtain ⟨m', hm'⟩ := hc m _ hm
          exact ⟨m', by rw [Nat.cast_succ, ← add_assoc]; exact hm'⟩
      choose c hc using all
      have hinj : Function.Injective c := by
        intro i j e
        have := (row_unique hf hout (hc i) (by rw [e]; exact hc j)).2
        exact_mod_cast (add_left_cancel this)
      exact not_injective_infinite_finite c hinj
    have hn' := ((hrows n s r).1 hn).1
    rcases C57_outseg hf hout hn with ⟨m, hm, _⟩ | ⟨_, t1, ht1, hcase⟩
    · exact absurd hm (hlast m)
    rw [ht] at ht1
    cases ht1
    rcases C57_outseg hf' hout' hn' with ⟨m, hm, _⟩ | ⟨_, t2, ht2, hcase2⟩
    · obtain ⟨m, rfl⟩ := σ.surjective m
      exact absurd ((hrows m s (r + 1)).2 ⟨hm, hs⟩) (hlast m)
    rw [ht2]
    congr 1
    rcases hcase with ⟨rfl, hno⟩ | ⟨_, m, hfd, hm⟩
    · rcases hcase2 with ⟨rfl, _⟩ | ⟨_, m, hfd, _⟩
      · exact (if_neg h0).symm
      · obtain ⟨m, rfl⟩ := σ.surjective m
        exact absurd ((feeds h hsa _ _).1 hfd) (hno m)
    · have hfd' := (feeds h hsa n m).2 hfd
      rcases hcase2 with ⟨_, hno⟩ | ⟨_, m2, hfd2, hm2⟩
      · exact absurd hfd' (hno _)
      · have : m2 = σ m := Fin.ext (by
          have h1 := hfd2.2.2
          rw [hfd'.2.2] at h1
          exact_mod_cast h1.symm)
        rw [this] at hm2
        exact (row_unique hf' hout' hm2 ((hrows m t 1).1 hm).1).1

/-! ### A concrete case: the row of C135, and a fork -/

theorem row_same : SameFlow Dirs.rowRev (![1, 2, 2, 3] : Fin 4 → ℤ) ![0, 1, 1, 2] := by
  unfold SameFlow; decide +kernel

/-- two headwaters, 0 and 1, meet in 2, which flows to 3 -/
def forkF : Fin 4 → ℤ := ![2, 2, 3, 3]
/-- the same, numbered from the other end -/
def forkR : Fin 4 → ℤ := ![0, 0, 1, 1]
theorem fork_same : SameFlow Dirs.rowRev forkF forkR := by unfold SameFlow; decide +kernel
def forkD : Fin 4 → Fin 4 := ![2, 2, 3, 3]
def forkDR : Fin 4 → Fin 4 := ![0, 0, 1, 1]
theorem fork_legal : Legal forkF forkD ∧ Legal forkR forkDR := by unfold Legal; decide +kernel
theorem fork_off (n : Fin 4) : ¬ OnCycle forkD n := by
  rintro ⟨h1, k, hk⟩
  have : ∀ n : Fin 4, (forkD n : ℕ) ≥ n ∧ (forkD n ≠ n → (forkD n : ℕ) > n) := by decide +kernel
  have hmono : ∀ k (n : Fin 4), ((forkD^[k] n : Fin 4) : ℕ) ≥ n := by
    intro k
    induction k with
    | zero => intro n; exact le_rfl
    | succ k ih => intro n; rw [Function.iterate_succ_apply]; exact le_trans (this n).1 (ih _)
  have h2 := (this n).2 h1
  have h3 := hmono k (forkD n)
  rw [← Function.iterate_succ_apply, hk] at h3
  omega

example {a a' : Fin 4 → ℚ} (ha : Acc.flowAccumulation 5 forkF (fun _ => 1) false = .ok a)
    (ha' : Acc.flowAccumulation 5 forkR (fun _ => 1) false = .ok a') : a' 1 = a 2 := by
  have := C190_accumulation (K := ℚ) (area := fun _ => 1) (area' := fun _ => 1) fork_same fork_legal.1 fork_legal.2
    (fun _ => rfl) ha ha' 2 (fork_off 2)
  rwa [show Dirs.rowRev 2 = 1 by decide] at this
example : (∃ a, Acc.flowAccumulation 5 forkF (fun _ => (1 : ℚ)) false = .ok a) ∧
    ∃ a, Acc.flowAccumulation 5 forkR (fun _ => (1 : ℚ)) false = .ok a :=
  ⟨⟨![1, 1, 3, 4], by decide +kernel⟩, ⟨![4, 3, 1, 1], by decide +kernel⟩⟩
example {t t' : Basin.State 4} {w w' : Fin 4 → ℕ}
    (hw : Basin.watershed 9 ⟨forkF, none⟩ 2 (fun _ => 0) = .ok (t, w))
    (hw' : Basin.watershed 9 ⟨forkR, none⟩ 1 (fun _ => 0) = .ok (t', w')) : w' 3 = w 0 :=
  C190_watershed (p := 2) fork_same fork_legal.1 fork_legal.2 (by decide) (by decide) hw hw' 0
example {r r' : Fin 4 → ℤ} {g g' : Dict ℤ ℤ}
    (hm : Reach.mf6 10 forkF ![1, 1, 1, 0] = .ok (r, g)) (hm' : Reach.mf6 10 forkR ![0, 1, 1, 1] = .ok (r', g')) :
    r' 3 = 0 ↔ r 0 = 0 :=
  (C190_mf6 fork_same fork_legal.1 fork_legal.2 (by decide +kernel) hm hm' 0).1
-- the reach numbers differ: cells 0 and 1 are reaches 2 and 1, numbered from the other end (as cells 3 and 2) reaches 1 and 2
example : (Reach.mf6 10 forkF ![1, 1, 1, 0]).map (fun x => List.ofFn x.1) = .ok [2, 1, 3, 0] ∧
    (Reach.mf6 10 forkR ![0, 1, 1, 1]).map (fun x => List.ofFn x.1) = .ok [0, 3, 2, 1] := by
  constructor <;> decide +kernel
example {out out' : Seg.Out 4} (h : Seg.mf2005 10 9 false forkF ![1, 1, 1, 1] true = .ok out)
    (h' : Seg.mf2005 10 9 false forkR ![1, 1, 1, 1] true = .ok out') :
    ∃ f : ℤ → ℤ, ∀ n s r, (n, s, r) ∈ out.nsr → (Dirs.rowRev n, f s, r) ∈ out'.nsr := by
  obtain ⟨f, _, _, _, _, hr, _⟩ := C191_segments fork_same (sa := ![1, 1, 1, 1]) (sa' := ![1, 1, 1, 1])
    (by decide +kernel) (by decide) (by decide) h h'
  exact ⟨f, fun n s r hn => ((hr n s r).1 hn).1⟩
example : (Seg.mf2005 10 9 false forkF ![1, 1, 1, 1] true).map Seg.Out.show =
      .ok ([2, 1, 3, 4], [(2, 3), (1, 3), (3, 4), (4, 4)], [(0, 2, 1), (1, 1, 1), (2, 3, 1), (3, 4, 1)]) ∧
    (Seg.mf2005 10 9 false forkR ![1, 1, 1, 1] true).map Seg.Out.show =
      .ok ([4, 3, 2, 1], [(2, 3), (1, 3), (4, 4), (3, 4)], [(2, 2, 1), (3, 1, 1), (0, 4, 1), (1, 3, 1)]) := by
  constructor <;> decide +kernel

end Dany.Pipe
