import Verif.Topo.Props
import Mathlib.Algebra.BigOperators.Intervals
import Mathlib.Algebra.BigOperators.Ring.Finset
import Mathlib.Tactic.Ring

/-!
# C222: the running time of `Topology.sort`

`_sort_util` and `sort` with counters: calls of `_sort_util`, and entries of the result list that
`stack.insert(0, seg)` has to move one place down.
-/

namespace Dany.Topo

open Relation

variable {topo : Dict ℤ ℤ}

/-! ### The model with counters -/

/-- `_sort_util` (stream_util.py:1434-1463), `sortUtil` with two counters: calls of the method, itself included,
and entries moved by `stack.insert(0, seg)`, which are all that the list has; `stack.append(seg)` moves none -/
def sortUtilT (topo : Dict ℤ ℤ) : ℕ → ℤ → Dict ℤ Bool → List ℤ → Res ((Dict ℤ Bool × List ℤ) × ℕ × ℕ)
  | 0, _, _, _ => .err .recursionError
  | limit + 1, seg, visited, stack =>
    let visited := visited.set seg true
    (if seg = 0 then .ok 0 else topo.getE seg).bind fun ioutseg =>
      (visited.getE ioutseg).bind fun seen =>
        (if seen then .ok ((visited, stack), 0, 0) else sortUtilT topo limit ioutseg visited stack).bind fun r =>
          if seg = 0 then .ok (r.1, r.2.1 + 1, r.2.2)
          else if ioutseg = 0 then .ok ((r.1.1, r.1.2 ++ [seg]), r.2.1 + 1, r.2.2)
          else .ok ((r.1.1, seg :: r.1.2), r.2.1 + 1, r.2.2 + r.1.2.length)

/-- one iteration of `for i in sorted(visited)` (stream_util.py:1480-1485), adding up the counts -/
def sortStepT (limit : ℕ) (topo : Dict ℤ ℤ) (r : Res ((Dict ℤ Bool × List ℤ) × ℕ × ℕ)) (i : ℤ) :
    Res ((Dict ℤ Bool × List ℤ) × ℕ × ℕ) :=
  r.bind fun s =>
    if i = 0 then .ok s
    else (s.1.1.getE i).bind fun seen =>
      if seen then .ok s
      else (sortUtilT topo limit i s.1.1 s.1.2).map fun y => (y.1, s.2.1 + y.2.1, s.2.2 + y.2.2)

/-- `Topology.sort` (stream_util.py:1465-1487) with both counts: the list, the calls, the entries moved -/
def sortT (limit : ℕ) (topo : Dict ℤ ℤ) : Res (List ℤ × ℕ × ℕ) :=
  (((initVisited topo).keys.insertionSort (· ≤ ·)).foldl (sortStepT limit topo)
    (.ok ((initVisited topo, []), 0, 0))).map fun x => (x.1.2, x.2)

/-! ### The counters change nothing -/

theorem sortUtilT_fst (topo : Dict ℤ ℤ) : ∀ (k : ℕ) (seg : ℤ) (v : Dict ℤ Bool) (S : List ℤ),
    (sortUtilT topo k seg v S).map Prod.fst = sortUtil topo k seg v S := by
  intro k
  induction k with
  | zero => intros; rfl
  | succ k ih =>
    intro seg v S
    simp only [sortUtilT, sortUtil]
    cases (if seg = 0 then Res.ok 0 else topo.getE seg) with
    | err e => rfl
    | hang => rfl
    | ok o =>
      simp only [Res.bind_ok]
      cases (v.set seg true).getE o with
      | err e => rfl
      | hang => rfl
      | ok seen =>
        simp only [Res.bind_ok]
        cases seen with
        | true => simp only [if_true, Res.bind_ok]; split_ifs <;> rfl
        | false =>
          simp only [Bool.false_eq_true, if_false]
          rw [← ih]
          cases sortUtilT topo k o (v.set seg true) S with
          | err e => rfl
          | hang => rfl
          | ok r => simp only [Res.bind_ok, Res.map]; split_ifs <;> rfl

theorem sortT_fst (limit : ℕ) (topo : Dict ℤ ℤ) : (sortT limit topo).map Prod.fst = sort limit topo := by
  have key : ∀ (l : List ℤ) (r : Res ((Dict ℤ Bool × List ℤ) × ℕ × ℕ)),
      (l.foldl (sortStepT limit topo) r).map Prod.fst = l.foldl (sortStep limit topo) (r.map Prod.fst) := by
    intro l
    induction l with
    | nil => intro r; rfl
    | cons a l ih =>
      intro r
      rw [List.foldl_cons, List.foldl_cons, ih]
      congr 1
      cases r with
      | err e => rfl
      | hang => rfl
      | ok s =>
        simp only [sortStepT, sortStep, Res.bind_ok, Res.map]
        split_ifs
        · rfl
        · cases s.1.1.getE a with
          | err e => rfl
          | hang => rfl
          | ok seen =>
            simp only [Res.bind_ok]
            cases seen with
            | true => rfl
            | false =>
              simp only [Bool.false_eq_true, if_false]
              rw [← sortUtilT_fst]
              cases sortUtilT topo limit a s.1.1 s.1.2 <;> rfl
  have h := key ((initVisited topo).keys.insertionSort (· ≤ ·)) (.ok ((initVisited topo, []), 0, 0))
  unfold sortT sort
  change _ = (List.foldl _ (Res.map Prod.fst (.ok ((initVisited topo, []), 0, 0))) _).map Prod.snd
  rw [← h]
  cases ((initVisited topo).keys.insertionSort (· ≤ ·)).foldl (sortStepT limit topo)
    (.ok ((initVisited topo, []), 0, 0)) <;> rfl

/-! ### The counts -/

/-- 0 + 1 + ... + (n - 1) -/
def below (n : ℕ) : ℕ := ∑ i ∈ Finset.range n, i

theorem below_succ (n : ℕ) : below (n + 1) = below n + n := Finset.sum_range_succ _ _

/-- 1 if the pseudo-segment 0 has been visited -/
def zeroSeen (v : Dict ℤ Bool) : ℕ := if v.get? 0 = some true then 1 else 0

/-- what one call of a segment other than 0 does, if it succeeds -/
theorem sortUtilT_ok {k : ℕ} {seg : ℤ} {v : Dict ℤ Bool} {S : List ℤ} {x : (Dict ℤ Bool × List ℤ) × ℕ × ℕ}
    (h0 : seg ≠ 0) (h : sortUtilT topo (k + 1) seg v S = .ok x) :
    ∃ o r, topo.get? seg = some o ∧
      (((v.set seg true).get? o = some true ∧ r = ((v.set seg true, S), 0, 0)) ∨
        ((v.set seg true).get? o = some false ∧ sortUtilT topo k o (v.set seg true) S = .ok r)) ∧
      x = if o = 0 then ((r.1.1, r.1.2 ++ [seg]), r.2.1 + 1, r.2.2)
        else ((r.1.1, seg :: r.1.2), r.2.1 + 1, r.2.2 + r.1.2.length) := by
  simp only [sortUtilT, if_neg h0] at h
  obtain ⟨o, ho, h⟩ := Res.bind_eq_ok.1 h
  obtain ⟨seen, hs, h⟩ := Res.bind_eq_ok.1 h
  obtain ⟨r, hr, h⟩ := Res.bind_eq_ok.1 h
  have ho' : topo.get? seg = some o := by
    unfold Dict.getE at ho
    cases e : topo.get? seg <;> rw [e] at ho <;> simp_all
  have hs' : (v.set seg true).get? o = some seen := by
    unfold Dict.getE at hs
    cases e : (v.set seg true).get? o <;> rw [e] at hs <;> simp_all
  refine ⟨o, r, ho', ?_, ?_⟩
  · cases seen with
    | true =>
      left
      rw [if_pos rfl] at hr
      exact ⟨hs', (Res.ok.inj hr).symm⟩
    | false =>
      right
      rw [if_neg Bool.false_ne_true] at hr
      exact ⟨hs', hr⟩
  · split_ifs at h ⊢ <;> exact (Res.ok.inj h).symm

/-- the call of the pseudo-segment 0 -/
theorem sortUtilT_zero {k : ℕ} {v : Dict ℤ Bool} {S : List ℤ} {x : (Dict ℤ Bool × List ℤ) × ℕ × ℕ}
    (h : sortUtilT topo k 0 v S = .ok x) : x = ((v.set 0 true, S), 1, 0) := by
  cases k with
  | zero => cases h
  | succ k =>
    simp only [sortUtilT, if_true, Res.bind_ok, Dict.getE, Dict.get?_set_self] at h
    exact (Res.ok.inj h).symm

theorem sortUtilT_count : ∀ (k : ℕ) (seg : ℤ) (v : Dict ℤ Bool) (S : List ℤ) (v' : Dict ℤ Bool) (S' : List ℤ)
    (c m : ℕ), sortUtilT topo k seg v S = .ok ((v', S'), c, m) → (seg = 0 → v.get? 0 ≠ some true) →
    c + zeroSeen v + S.length = S'.length + zeroSeen v' ∧ m + below S.length ≤ below S'.length := by
  intro k
  induction k with
  | zero => intro seg v S v' S' c m h; cases h
  | succ k ih =>
    intro seg v S v' S' c m h hz
    by_cases h0 : seg = 0
    · subst h0
      have e := sortUtilT_zero h
      simp only [Prod.mk.injEq] at e
      obtain ⟨⟨rfl, rfl⟩, rfl, rfl⟩ := e
      have e1 : zeroSeen v = 0 := by rw [zeroSeen, if_neg (hz rfl)]
      have e2 : zeroSeen (v.set 0 true) = 1 := by rw [zeroSeen, if_pos (Dict.get?_set_self _ _ _)]
      omega
    · obtain ⟨o, ⟨⟨v1, S1⟩, c1, m1⟩, ho, hr, hx⟩ := sortUtilT_ok h0 h
      have e1 : zeroSeen (v.set seg true) = zeroSeen v := by
        unfold zeroSeen
        rw [Dict.get?_set_ne _ _ (Ne.symm h0)]
      have hrec : c1 + zeroSeen v + S.length = S1.length + zeroSeen v1 ∧ m1 + below S.length ≤ below S1.length := by
        rcases hr with ⟨-, hr⟩ | ⟨hs, hr⟩
        · simp only [Prod.mk.injEq] at hr
          obtain ⟨⟨rfl, rfl⟩, rfl, rfl⟩ := hr
          omega
        · have := ih _ _ _ _ _ _ _ hr (by rintro rfl; rw [hs]; simp)
          omega
      split_ifs at hx <;> simp only [Prod.mk.injEq] at hx <;> obtain ⟨⟨rfl, rfl⟩, rfl, rfl⟩ := hx
      · have : below (S1.length + 1) = below S1.length + S1.length := below_succ _
        simp only [List.length_append, List.length_singleton]
        omega
      · have : below (S1.length + 1) = below S1.length + S1.length := below_succ _
        simp only [List.length_cons]
        omega

/-- the pseudo-segment 0 is visited just when a listed segment flows into it -/
theorem sortUtilT_outlet : ∀ (k : ℕ) (seg : ℤ) (v : Dict ℤ Bool) (S : List ℤ) (v' : Dict ℤ Bool) (S' : List ℤ)
    (c m : ℕ), sortUtilT topo k seg v S = .ok ((v', S'), c, m) → seg ≠ 0 →
    (v.get? 0 = some true ↔ ∃ x ∈ S, topo.get? x = some 0) →
    (v'.get? 0 = some true ↔ ∃ x ∈ S', topo.get? x = some 0) := by
  intro k
  induction k with
  | zero => intro seg v S v' S' c m h; cases h
  | succ k ih =>
    intro seg v S v' S' c m h h0 hJ
    obtain ⟨o, ⟨⟨v1, S1⟩, c1, m1⟩, ho, hr, hx⟩ := sortUtilT_ok h0 h
    have e1 : (v.set seg true).get? 0 = v.get? 0 := Dict.get?_set_ne _ _ (Ne.symm h0)
    by_cases h1 : o = 0
    · subst h1
      rw [if_pos rfl] at hx
      simp only [Prod.mk.injEq] at hx
      obtain ⟨⟨rfl, rfl⟩, rfl, rfl⟩ := hx
      refine iff_of_true ?_ ⟨seg, by simp, ho⟩
      rcases hr with ⟨hs, hr⟩ | ⟨hs, hr⟩
      · simp only [Prod.mk.injEq] at hr
        rw [hr.1.1, hs]
      · have := sortUtilT_zero hr
        simp only [Prod.mk.injEq] at this
        rw [this.1.1, Dict.get?_set_self]
    · rw [if_neg h1] at hx
      simp only [Prod.mk.injEq] at hx
      obtain ⟨⟨rfl, rfl⟩, rfl, rfl⟩ := hx
      have hrec : v'.get? 0 = some true ↔ ∃ x ∈ S1, topo.get? x = some 0 := by
        rcases hr with ⟨-, hr⟩ | ⟨hs, hr⟩
        · simp only [Prod.mk.injEq] at hr
          obtain ⟨⟨rfl, rfl⟩, rfl, rfl⟩ := hr
          rw [e1, hJ]
        · exact ih _ _ _ _ _ _ _ hr h1 (by rw [e1, hJ])
      rw [hrec]
      constructor
      · rintro ⟨x, hx, e⟩; exact ⟨x, List.mem_cons_of_mem _ hx, e⟩
      · rintro ⟨x, hx, e⟩
        rcases List.mem_cons.1 hx with rfl | hx
        · rw [ho] at e; exact absurd (Option.some.inj e) h1
        · exact ⟨x, hx, e⟩

theorem sortStepT_not_ok {limit : ℕ} {r : Res ((Dict ℤ Bool × List ℤ) × ℕ × ℕ)} {x}
    : ∀ l : List ℤ, l.foldl (sortStepT limit topo) r = .ok x → ∃ s, r = .ok s := by
  intro l
  induction l generalizing r with
  | nil => intro h; exact ⟨x, h⟩
  | cons a l ih =>
    intro h
    obtain ⟨s, hs⟩ := ih h
    obtain ⟨y, hy, -⟩ := Res.bind_eq_ok.1 hs
    exact ⟨y, hy⟩

/-- an invariant of the state that every call from the loop keeps holds at the end of the loop -/
theorem sortLoopT_induct {limit : ℕ} {I : Dict ℤ Bool → List ℤ → ℕ → ℕ → Prop}
    (hI : ∀ i v S c m v' S' c' m', i ≠ 0 → v.get? i = some false → I v S c m →
      sortUtilT topo limit i v S = .ok ((v', S'), c', m') → I v' S' (c + c') (m + m')) :
    ∀ (l : List ℤ) (v : Dict ℤ Bool) (S : List ℤ) (c m : ℕ) (v' : Dict ℤ Bool) (S' : List ℤ) (c' m' : ℕ),
      I v S c m → l.foldl (sortStepT limit topo) (.ok ((v, S), c, m)) = .ok ((v', S'), c', m') → I v' S' c' m' := by
  intro l
  induction l with
  | nil =>
    intro v S c m v' S' c' m' h e
    have := Res.ok.inj e
    simp only [Prod.mk.injEq] at this
    obtain ⟨⟨rfl, rfl⟩, rfl, rfl⟩ := this
    exact h
  | cons a l ih =>
    intro v S c m v' S' c' m' h e
    rw [List.foldl_cons] at e
    obtain ⟨⟨⟨v1, S1⟩, c1, m1⟩, hs⟩ := sortStepT_not_ok l e
    rw [hs] at e
    refine ih _ _ _ _ _ _ _ _ ?_ e
    simp only [sortStepT, Res.bind_ok] at hs
    split_ifs at hs with h0
    · have := Res.ok.inj hs
      simp only [Prod.mk.injEq] at this
      obtain ⟨⟨rfl, rfl⟩, rfl, rfl⟩ := this
      exact h
    · obtain ⟨seen, hseen, hs⟩ := Res.bind_eq_ok.1 hs
      cases seen with
      | true =>
        have := Res.ok.inj hs
        simp only [Prod.mk.injEq] at this
        obtain ⟨⟨rfl, rfl⟩, rfl, rfl⟩ := this
        exact h
      | false =>
        obtain ⟨⟨⟨v2, S2⟩, c2, m2⟩, h2, h3⟩ := Res.map_eq_ok.1 hs
        simp only [Prod.mk.injEq] at h3
        obtain ⟨⟨rfl, rfl⟩, rfl, rfl⟩ := h3
        refine hI a v S c m _ _ _ _ h0 ?_ h h2
        unfold Dict.getE at hseen
        cases e : v.get? a <;> rw [e] at hseen <;> simp_all

/-- **C222.** If `sort` succeeds, it has called `_sort_util` once for each segment, and once more if some segment
flows into 0 (an outlet); `insert(0, _)` has moved at most n (n - 1) / 2 entries for a list of n segments. -/
theorem C222_time (href : RefsExist topo) (hnd : topo.keys.Nodup) {limit : ℕ} {l : List ℤ}
    (hs : sort limit topo = .ok l) :
    ∃ calls moves, sortT limit topo = .ok (l, calls, moves) ∧
      calls = (topo.keys.filter (fun x => x ≠ 0)).length + (open Classical in if ∃ x, FlowsTo topo x 0 then 1 else 0) ∧
      2 * moves ≤ l.length * (l.length - 1) := by
  obtain ⟨⟨l1, c, m⟩, hT, hl⟩ := Res.map_eq_ok.1 ((sortT_fst limit topo).trans hs)
  dsimp only at hl
  subst hl
  refine ⟨c, m, hT, ?_⟩
  obtain ⟨⟨⟨v', S'⟩, c', m'⟩, hL, he⟩ := Res.map_eq_ok.1 hT
  simp only [Prod.mk.injEq] at he
  obtain ⟨rfl, rfl, rfl⟩ := he
  have hz : (initVisited topo).get? 0 = some false := by rw [initVisited_get, if_pos (.inl rfl)]
  obtain ⟨h1, h2, h3⟩ := sortLoopT_induct (limit := limit) (topo := topo)
    (I := fun v S c m => c = S.length + zeroSeen v ∧ m ≤ below S.length ∧
      (v.get? 0 = some true ↔ ∃ x ∈ S, topo.get? x = some 0))
    (by
      rintro i v S c m v' S' c' m' h0 hv ⟨h1, h2, h3⟩ hr
      have h4 := sortUtilT_count _ _ _ _ _ _ _ _ hr (fun h => absurd h h0)
      exact ⟨by omega, by omega, sortUtilT_outlet _ _ _ _ _ _ _ _ hr h0 h3⟩)
    _ _ _ _ _ _ _ _ _ ⟨by simp [zeroSeen, hz], by simp, by simp [hz]⟩ hL
  have hperm : S'.Perm (topo.keys.filter (fun x => x ≠ 0)) := by
    rcases C46_permutation href hnd limit with h | ⟨l2, h, hp⟩
    · rw [hs] at h; cases h
    · rw [hs] at h; cases h; exact hp
  refine ⟨?_, ?_⟩
  · rw [h1, hperm.length_eq]
    congr 1
    unfold zeroSeen
    have hiff : v'.get? 0 = some true ↔ ∃ x, FlowsTo topo x 0 := by
      rw [h3]
      constructor
      · rintro ⟨x, hx, e⟩
        refine ⟨x, ?_, e⟩
        have := (hperm.mem_iff.1 hx)
        rw [List.mem_filter] at this
        simpa using this.2
      · rintro ⟨x, hx, e⟩
        refine ⟨x, hperm.mem_iff.2 ?_, e⟩
        rw [List.mem_filter]
        exact ⟨Dict.mem_keys_iff.2 ⟨_, e⟩, by simpa using hx⟩
    by_cases h : ∃ x, FlowsTo topo x 0
    · rw [if_pos (hiff.2 h), if_pos h]
    · rw [if_neg (fun e => h (hiff.1 e)), if_neg h]
  · have := Finset.sum_range_id_mul_two S'.length
    unfold below at h2
    omega

/-! ### One outlet: the bound is attained -/

open Classical in
/-- the number of segments upstream of `x` -/
noncomputable def upstream (topo : Dict ℤ ℤ) (x : ℤ) : ℕ :=
  (topo.keys.toFinset.filter (fun z => ReflTransGen (FlowsTo topo) z x)).card

theorem upstream_lt (href : RefsExist topo) (hac : Acyclic topo) (hself : ∀ x, ¬ FlowsTo topo x x) {x y : ℤ}
    (h : FlowsTo topo x y) (hy : y ≠ 0) : upstream topo x < upstream topo y := by
  classical
  refine Finset.card_lt_card ((Finset.ssubset_iff_of_subset ?_).2 ⟨y, ?_, ?_⟩)
  · intro z hz
    rw [Finset.mem_filter] at hz ⊢
    exact ⟨hz.1, hz.2.tail h⟩
  · rw [Finset.mem_filter, List.mem_toFinset]
    exact ⟨(href x y h).resolve_left hy, .refl⟩
  · intro hz
    rw [Finset.mem_filter] at hz
    have := hac x y (.single h) hz.2
    subst this
    exact hself _ h

theorem sortUtilT_mono : ∀ (k : ℕ) (seg : ℤ) (v : Dict ℤ Bool) (S : List ℤ) (v' : Dict ℤ Bool) (S' : List ℤ)
    (c m : ℕ), sortUtilT topo k seg v S = .ok ((v', S'), c, m) → ∀ x, v.get? x = some true →
    v'.get? x = some true := by
  have hkeep : ∀ (v : Dict ℤ Bool) (seg x : ℤ), v.get? x = some true → (v.set seg true).get? x = some true := by
    intro v seg x hx
    rw [Dict.get?_set]
    split_ifs
    · rfl
    · exact hx
  intro k
  induction k with
  | zero => intro seg v S v' S' c m h; cases h
  | succ k ih =>
    intro seg v S v' S' c m h x hx
    by_cases h0 : seg = 0
    · subst h0
      have e := sortUtilT_zero h
      simp only [Prod.mk.injEq] at e
      rw [e.1.1]
      exact hkeep _ _ _ hx
    · obtain ⟨o, ⟨⟨v1, S1⟩, c1, m1⟩, ho, hr, hx2⟩ := sortUtilT_ok h0 h
      have hrec : v1.get? x = some true := by
        rcases hr with ⟨-, hr⟩ | ⟨-, hr⟩
        · simp only [Prod.mk.injEq] at hr
          rw [hr.1.1]
          exact hkeep _ _ _ hx
        · exact ih _ _ _ _ _ _ _ hr x (hkeep _ _ _ hx)
      split_ifs at hx2 <;> simp only [Prod.mk.injEq] at hx2 <;> rw [hx2.1.1] <;> exact hrec

theorem sortUtilT_exact (href : RefsExist topo) (hac : Acyclic topo) (hself : ∀ x, ¬ FlowsTo topo x x) {o : ℤ}
    (ho : ∀ x, FlowsTo topo x 0 → x = o) : ∀ (k : ℕ) (seg : ℤ) (v : Dict ℤ Bool) (S : List ℤ) (v' : Dict ℤ Bool)
    (S' : List ℤ) (c m : ℕ), sortUtilT topo k seg v S = .ok ((v', S'), c, m) → seg ≠ 0 → v.get? seg = some false →
    (∀ x, x ≠ 0 → v.get? x = some true → x ∈ S ∨ upstream topo x < upstream topo seg) →
    (S ≠ [] → o ∈ S) → (∀ x ∈ S, v.get? x = some true ∧ x ≠ 0) →
    (∀ x, x ≠ 0 → v'.get? x = some true → x ∈ S' ∨ v.get? x = some true) ∧ S ⊆ S' ∧ seg ∈ S' ∧ o ∈ S' ∧
      (∀ x ∈ S', v'.get? x = some true ∧ x ≠ 0) ∧ m + below S.length = below S'.length := by
  intro k
  induction k with
  | zero => intro seg v S v' S' c m h; cases h
  | succ k ih =>
    intro seg v S v' S' c m h h0 hseg hA hB hC
    obtain ⟨y, ⟨⟨v1, S1⟩, c1, m1⟩, hy, hr, hx⟩ := sortUtilT_ok h0 h
    have hf : FlowsTo topo seg y := ⟨h0, hy⟩
    have hset : ∀ x, (v.set seg true).get? x = some true → x = seg ∨ v.get? x = some true := by
      intro x hx
      rw [Dict.get?_set] at hx
      split_ifs at hx with e
      · exact .inl e
      · exact .inr hx
    by_cases h1 : y = 0
    · subst h1
      have hso := ho seg hf
      subst hso
      have hS : S = [] := by
        by_contra hne
        have := (hC _ (hB hne)).1
        rw [hseg] at this; cases this
      subst hS
      rw [if_pos rfl] at hx
      simp only [Prod.mk.injEq] at hx
      obtain ⟨⟨rfl, rfl⟩, rfl, rfl⟩ := hx
      have hS1 : S1 = [] ∧ m = 0 ∧ ∀ x, x ≠ 0 → v'.get? x = (v.set seg true).get? x := by
        rcases hr with ⟨-, hr⟩ | ⟨-, hr⟩
        · simp only [Prod.mk.injEq] at hr
          obtain ⟨⟨rfl, rfl⟩, rfl, rfl⟩ := hr
          exact ⟨rfl, rfl, fun _ _ => rfl⟩
        · have := sortUtilT_zero hr
          simp only [Prod.mk.injEq] at this
          obtain ⟨⟨rfl, rfl⟩, rfl, rfl⟩ := this
          exact ⟨rfl, rfl, fun x hx => Dict.get?_set_ne _ _ hx⟩
      obtain ⟨rfl, rfl, hv⟩ := hS1
      refine ⟨?_, by simp, by simp, by simp, ?_, by simp [below]⟩
      · intro x hx e
        rw [hv x hx] at e
        rcases hset x e with rfl | e
        · left; simp
        · exact .inr e
      · intro x hx
        rw [List.nil_append, List.mem_singleton] at hx
        subst hx
        exact ⟨by rw [hv _ h0, Dict.get?_set_self], h0⟩
    · have hlt := upstream_lt href hac hself hf h1
      have hys : y ≠ seg := by rintro rfl; exact hself _ hf
      rw [if_neg h1] at hx
      simp only [Prod.mk.injEq] at hx
      obtain ⟨⟨rfl, rfl⟩, rfl, rfl⟩ := hx
      have hrec : (∀ x, x ≠ 0 → v'.get? x = some true → x ∈ S1 ∨ (v.set seg true).get? x = some true) ∧
          S ⊆ S1 ∧ y ∈ S1 ∧ o ∈ S1 ∧ v'.get? seg = some true ∧
          (∀ x ∈ S1, v'.get? x = some true ∧ x ≠ 0) ∧ m1 + below S.length = below S1.length := by
        have hC1 : ∀ x ∈ S, (v.set seg true).get? x = some true ∧ x ≠ 0 := by
          intro x hx
          refine ⟨?_, (hC x hx).2⟩
          rw [Dict.get?_set]
          split_ifs
          · rfl
          · exact (hC x hx).1
        rcases hr with ⟨hs, hr⟩ | ⟨hs, hr⟩
        · simp only [Prod.mk.injEq] at hr
          obtain ⟨⟨rfl, rfl⟩, rfl, rfl⟩ := hr
          have hyS : y ∈ S1 := by
            rcases hA y h1 ((hset y hs).resolve_left hys) with h | h
            · exact h
            · omega
          exact ⟨fun x _ e => .inr e, List.Subset.refl _, hyS, hB (List.ne_nil_of_mem hyS),
            Dict.get?_set_self _ _ _, hC1, by omega⟩
        · have hmono := sortUtilT_mono _ _ _ _ _ _ _ _ hr seg (Dict.get?_set_self _ _ _)
          obtain ⟨a1, a2, a3, a4, a5, a6⟩ := ih y _ _ _ _ _ _ hr h1 hs (by
            intro x hx e
            rcases hset x e with rfl | e
            · exact .inr hlt
            · rcases hA x hx e with h | h
              · exact .inl h
              · exact .inr (h.trans hlt)) hB hC1
          exact ⟨a1, a2, a3, a4, hmono, a5, a6⟩
      obtain ⟨a1, a2, a3, a4, a5, a6, a7⟩ := hrec
      refine ⟨?_, fun x hx => List.mem_cons_of_mem _ (a2 hx), by simp, List.mem_cons_of_mem _ a4, ?_, ?_⟩
      · intro x hx e
        rcases a1 x hx e with h | h
        · exact .inl (List.mem_cons_of_mem _ h)
        · rcases hset x h with rfl | h
          · left; simp
          · exact .inr h
      · intro x hx
        rcases List.mem_cons.1 hx with rfl | hx
        · exact ⟨a5, h0⟩
        · exact a6 x hx
      · have : below (S1.length + 1) = below S1.length + S1.length := below_succ _
        simp only [List.length_cons]
        omega

/-- Without cycles and with a single outlet segment that bound is attained: of two segments the one listed second
has always been moved for the first. So the sort takes quadratic time on every such network. -/
theorem C222_quadratic (href : RefsExist topo) (hac : Acyclic topo) (hself : ∀ x, ¬ FlowsTo topo x x)
    {o : ℤ} (ho : ∀ x, FlowsTo topo x 0 → x = o) {limit : ℕ} {l : List ℤ}
    (hs : sort limit topo = .ok l) :
    ∃ calls moves, sortT limit topo = .ok (l, calls, moves) ∧ 2 * moves = l.length * (l.length - 1) := by
  obtain ⟨⟨l1, c, m⟩, hT, hl⟩ := Res.map_eq_ok.1 ((sortT_fst limit topo).trans hs)
  dsimp only at hl
  subst hl
  refine ⟨c, m, hT, ?_⟩
  obtain ⟨⟨⟨v', S'⟩, c', m'⟩, hL, he⟩ := Res.map_eq_ok.1 hT
  simp only [Prod.mk.injEq] at he
  obtain ⟨rfl, rfl, rfl⟩ := he
  obtain ⟨-, -, -, h1⟩ := sortLoopT_induct (limit := limit) (topo := topo)
    (I := fun v S c m => (∀ x, x ≠ 0 → v.get? x = some true → x ∈ S) ∧ (S ≠ [] → o ∈ S) ∧
      (∀ x ∈ S, v.get? x = some true ∧ x ≠ 0) ∧ m = below S.length)
    (by
      rintro i v S c m v' S' c' m' h0 hv ⟨h1, h2, h3, h4⟩ hr
      obtain ⟨a1, a2, a3, a4, a5, a6⟩ := sortUtilT_exact href hac hself ho _ _ _ _ _ _ _ _ hr h0 hv
        (fun x hx e => .inl (h1 x hx e)) h2 h3
      refine ⟨fun x hx e => (a1 x hx e).elim id (fun e => a2 (h1 x hx e)), fun _ => a4, a5, by omega⟩)
    _ _ _ _ _ _ _ _ _ ⟨by
      intro x _ e
      rw [initVisited_get] at e
      split_ifs at e <;> simp at e, by simp, by simp, by simp [below]⟩ hL
  have := Finset.sum_range_id_mul_two S'.length
  unfold below at h1
  omega

/-- In particular a river of n segments (numbered downstream) takes n + 1 calls and moves n (n - 1) / 2 entries. -/
theorem C222_river (n : ℕ) : ∃ l calls moves, sortT (n + 2) (river (n + 1)) = .ok (l, calls, moves) ∧
    l.length = n + 1 ∧ calls = n + 2 ∧ 2 * moves = (n + 1) * n := by
  obtain ⟨l, hs⟩ := C48_river_partial (n + 1)
  have hlast : FlowsTo (river (n + 1)) (n + 1) 0 :=
    ⟨by omega, Dict.get?_of_mem (river_nodup _) (river_mem.2 ⟨n, by omega, rfl, by simp⟩)⟩
  obtain ⟨c, m, e, h1, -⟩ := C222_time (river_refs _) (river_nodup _) hs
  obtain ⟨c2, m2, e2, h2⟩ := C222_quadratic (o := (n : ℤ) + 1) (river_refs _) (river_acyclic _) (by
      rintro x ⟨hx, h⟩
      obtain ⟨i, hi, e1, e2⟩ := river_mem.1 (Dict.mem_of_get? h)
      split_ifs at e2 <;> omega) (by
      rintro x ⟨hx, h⟩
      obtain ⟨i, hi, e1, e2⟩ := river_mem.1 (Dict.mem_of_get? h)
      split_ifs at e2 <;> omega) hs
  rw [e] at e2
  simp only [Res.ok.injEq, Prod.mk.injEq, true_and] at e2
  obtain ⟨rfl, rfl⟩ := e2
  have hlen : l.length = n + 1 := by
    rcases C46_permutation (river_refs (n + 1)) (river_nodup _) (n + 2) with h | ⟨l2, h, hp⟩
    · rw [hs] at h; cases h
    · rw [hs] at h; cases h
      rw [hp.length_eq, List.filter_eq_self.2, river_keys]
      · simp
      · intro x hx
        rw [river_keys, List.mem_map] at hx
        obtain ⟨i, -, rfl⟩ := hx
        simp; omega
  refine ⟨l, c, m, e, hlen, ?_, by rw [h2, hlen]; rfl⟩
  have h3 : (List.filter (fun x => decide (x ≠ 0)) (river (n + 1)).keys).length = n + 1 := by
    rcases C46_permutation (river_refs (n + 1)) (river_nodup _) (n + 2) with h | ⟨l2, h, hp⟩
    · rw [hs] at h; cases h
    · rw [hs] at h; cases h
      rw [← hp.length_eq, hlen]
  rw [h1, if_pos ⟨_, hlast⟩, h3]

/-- non-vacuity: a network with a cycle and a segment that flows into itself: 7 segments, 8 calls -/
example : sortT 8 exNet = .ok ([6, 7, 4, 3, 1, 2, 5], 8, 21) := by decide +kernel

/-- a network with two outlets: less than 3 entries moved; a circle without outlet: as many calls as segments -/
example : sortT 8 [(1, 0), (2, 0), (3, 2)] = .ok ([3, 1, 2], 4, 2) := by decide +kernel

example : sortT 8 [(1, 2), (2, 1)] = .ok ([1, 2], 2, 1) := by decide +kernel

/-- a network with one outlet: 4 segments, 5 calls, 6 entries moved; the hypotheses of C222 are met -/
example : sortT 6 [(1, 3), (2, 3), (3, 4), (4, 0)] = .ok ([2, 1, 3, 4], 5, 6) := by decide +kernel

example : ∃ calls moves, sortT 6 [(1, 3), (2, 3), (3, 4), (4, 0)] = .ok ([2, 1, 3, 4], calls, moves) ∧
    2 * moves = 4 * 3 := by
  have hmem : ∀ x y, FlowsTo [(1, 3), (2, 3), (3, 4), (4, 0)] x y →
      (x = 1 ∧ y = 3) ∨ (x = 2 ∧ y = 3) ∨ (x = 3 ∧ y = 4) ∨ (x = 4 ∧ y = 0) := by
    rintro x y ⟨_, h⟩
    have h2 := Dict.mem_of_get? h
    revert h2
    simp
  refine C222_quadratic (limit := 6) (o := 4) ?_ ?_ ?_ ?_ (by decide +kernel)
  · intro x y h
    rcases hmem x y h with h | h | h | h <;> simp [h, Dict.keys]
  · exact acyclic_of_increasing (fun x y h => by have := hmem x y h; omega)
  · intro x h; have := hmem _ _ h; omega
  · intro x h; have := hmem _ _ h; omega

end Dany.Topo
