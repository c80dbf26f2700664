import Verif.Basin.Props

/-!
# C171, C172: the order of the pour points, and more pour points
-/

namespace Dany.Topo

/-- dictionaries that answer every lookup alike -/
def Same {α : Type*} (a b : Dict ℤ α) : Prop := ∀ x, a.get? x = b.get? x

theorem Same.getE {α : Type*} {a b : Dict ℤ α} (h : Same a b) (x : ℤ) : a.getE x = b.getE x := by
  simp [Dict.getE, h x]

theorem Same.set {α : Type*} {a b : Dict ℤ α} (h : Same a b) (k : ℤ) (v : α) : Same (a.set k v) (b.set k v) := by
  intro x
  rw [Dict.get?_set, Dict.get?_set, h x]

theorem Same.keys {α : Type*} {a b : Dict ℤ α} (h : Same a b) (x : ℤ) : x ∈ a.keys ↔ x ∈ b.keys := by
  rw [← Dict.get?_isSome, ← Dict.get?_isSome, h x]

/-- the same outcome, up to the order of the entries of the dictionary of flags -/
def SameRes : Res (Dict ℤ Bool × List ℤ) → Res (Dict ℤ Bool × List ℤ) → Prop
  | .ok a, .ok b => Same a.1 b.1 ∧ a.2 = b.2
  | .err e, .err e' => e = e'
  | .hang, .hang => True
  | _, _ => False

theorem SameRes.bind {r s : Res (Dict ℤ Bool × List ℤ)} (h : SameRes r s)
    {f g : Dict ℤ Bool × List ℤ → Res (Dict ℤ Bool × List ℤ)}
    (hfg : ∀ a b : Dict ℤ Bool × List ℤ, Same a.1 b.1 → a.2 = b.2 → SameRes (f a) (g b)) :
    SameRes (r.bind f) (s.bind g) := by
  cases r <;> cases s <;> simp only [SameRes] at h
  · exact hfg _ _ h.1 h.2
  · simpa [SameRes] using h
  · simp [SameRes]

theorem sortUtil_same {t u : Dict ℤ ℤ} (ht : ∀ x, x ≠ 0 → t.get? x = u.get? x) : ∀ (limit : ℕ) (seg : ℤ) (v w : Dict ℤ Bool)
    (S : List ℤ), Same v w → SameRes (sortUtil t limit seg v S) (sortUtil u limit seg w S) := by
  intro limit
  induction limit with
  | zero => intro seg v w S _; simp [sortUtil, SameRes]
  | succ limit ih =>
    intro seg v w S hvw
    have hv := hvw.set seg true
    simp only [sortUtil]
    have hget : (if seg = 0 then Res.ok 0 else t.getE seg) = if seg = 0 then Res.ok 0 else u.getE seg := by
      split
      · rfl
      · rename_i hne
        simp only [Dict.getE, ht seg hne]
    rw [hget]
    cases hout : (if seg = 0 then Res.ok 0 else u.getE seg) with
    | err e => simp [SameRes]
    | hang => simp [SameRes]
    | ok o =>
      simp only [Res.bind_ok]
      rw [hv.getE o]
      cases hseen : (w.set seg true).getE o with
      | err e => simp [SameRes]
      | hang => simp [SameRes]
      | ok seen =>
        simp only [Res.bind_ok]
        have h1 : SameRes (if seen = true then .ok (v.set seg true, S) else sortUtil t limit o (v.set seg true) S)
            (if seen = true then .ok (w.set seg true, S) else sortUtil u limit o (w.set seg true) S) := by
          split
          · exact ⟨hv, rfl⟩
          · exact ih _ _ _ _ hv
        refine h1.bind fun a b hab hS => ?_
        split
        · exact ⟨hab, hS⟩
        · split
          · exact ⟨hab, by simp [hS]⟩
          · exact ⟨hab, by simp [hS]⟩

theorem sortFold_same {t u : Dict ℤ ℤ} (ht : ∀ x, x ≠ 0 → t.get? x = u.get? x) (limit : ℕ) : ∀ (l : List ℤ)
    (r s : Res (Dict ℤ Bool × List ℤ)), SameRes r s →
    SameRes (l.foldl (sortStep limit t) r) (l.foldl (sortStep limit u) s) := by
  intro l
  induction l with
  | nil => intro r s h; exact h
  | cons i l ih =>
    intro r s h
    rw [List.foldl_cons, List.foldl_cons]
    apply ih
    refine h.bind fun a b hab hS => ?_
    split
    · exact ⟨hab, hS⟩
    · rw [hab.getE i]
      cases b.1.getE i with
      | err e => simp [SameRes]
      | hang => simp [SameRes]
      | ok seen =>
        simp only [Res.bind_ok]
        split
        · exact ⟨hab, hS⟩
        · rw [hS]; exact sortUtil_same ht _ _ _ _ _ hab

/-- `Topology.sort` never looks up where segment 0 flows to. -/
theorem sort_sameNZ {t u : Dict ℤ ℤ} (ht : ∀ x, x ≠ 0 → t.get? x = u.get? x) (limit : ℕ) :
    sort limit t = sort limit u := by
  have hv : Same (initVisited t) (initVisited u) := by
    intro x
    rw [initVisited_get, initVisited_get]
    by_cases hx : x = 0
    · simp [hx]
    · have : x ∈ t.keys ↔ x ∈ u.keys := by rw [← Dict.get?_isSome, ← Dict.get?_isSome, ht x hx]
      simp only [this]
  have hp : (initVisited t).keys.Perm (initVisited u).keys :=
    (List.perm_ext_iff_of_nodup (initVisited_nodup t) (initVisited_nodup u)).2 hv.keys
  have hs : (initVisited t).keys.insertionSort (· ≤ ·) = (initVisited u).keys.insertionSort (· ≤ ·) :=
    (((List.perm_insertionSort (· ≤ ·) _).trans hp).trans (List.perm_insertionSort (· ≤ ·) _).symm).eq_of_pairwise
      (fun a b _ _ h1 h2 => le_antisymm h1 h2)
      (List.pairwise_insertionSort (· ≤ ·) _) (List.pairwise_insertionSort (· ≤ ·) _)
  unfold sort
  rw [hs]
  have := sortFold_same ht limit ((initVisited u).keys.insertionSort (· ≤ ·)) (.ok (initVisited t, []))
    (.ok (initVisited u, [])) ⟨hv, rfl⟩
  revert this
  cases ((initVisited u).keys.insertionSort (· ≤ ·)).foldl (sortStep limit t) (.ok (initVisited t, [])) <;>
    cases ((initVisited u).keys.insertionSort (· ≤ ·)).foldl (sortStep limit u) (.ok (initVisited u, [])) <;>
    simp [SameRes]

/-- `Topology.sort` depends on the connections only, not on the order in which they were added. -/
theorem sort_same {t u : Dict ℤ ℤ} (ht : Same t u) (limit : ℕ) : sort limit t = sort limit u :=
  sort_sameNZ (fun x _ => ht x) limit

end Dany.Topo

namespace Dany.Basin

open Function Flow Topo

variable {N : ℕ} {d : Fin N → Fin N} {fdir : Fin N → ℤ}

theorem nextPour_same {l m : List ℤ} (h : ∀ x, x ∈ l ↔ x ∈ m) (p : ℤ) : ∀ (k : ℕ) (x : ℤ) (visited : List ℤ),
    nextPour fdir l p k x visited = nextPour fdir m p k x visited := by
  intro k
  induction k with
  | zero => intro x v; rfl
  | succ k ih => intro x v; simp only [nextPour, h x, ih]

/-- what the graph of pour points holds, if it can be built -/
theorem pourFold_get {fuel : ℕ} {l : List ℤ} : ∀ (ps : List ℤ) (g0 g : Dict ℤ ℤ),
    ps.foldl (graphStep fuel fdir l) (.ok g0) = .ok g →
      (∀ p ∈ ps, ∃ q, nextPour fdir l p fuel p [] = .ok q ∧ g.get? p = some q) ∧
      ∀ x, x ∉ ps → g.get? x = g0.get? x := by
  intro ps
  induction ps with
  | nil => intro g0 g h; cases h; exact ⟨by simp, fun _ _ => rfl⟩
  | cons p ps ih =>
    intro g0 g h
    rw [List.foldl_cons] at h
    cases hq : nextPour fdir l p fuel p [] with
    | err e =>
      exfalso
      have : graphStep fuel fdir l (.ok g0) p = .err e := by simp [graphStep, hq]
      rw [this] at h
      have key : ∀ ps : List ℤ, ps.foldl (graphStep fuel fdir l) (.err e) = .err e := by
        intro ps; induction ps with
        | nil => rfl
        | cons a ps ih => rw [List.foldl_cons]; exact ih
      rw [key] at h; cases h
    | hang =>
      exfalso
      have : graphStep fuel fdir l (.ok g0) p = .hang := by simp [graphStep, hq]
      rw [this] at h
      have key : ∀ ps : List ℤ, ps.foldl (graphStep fuel fdir l) .hang = .hang := by
        intro ps; induction ps with
        | nil => rfl
        | cons a ps ih => rw [List.foldl_cons]; exact ih
      rw [key] at h; cases h
    | ok q =>
      have : graphStep fuel fdir l (.ok g0) p = .ok (g0.set p q) := by simp [graphStep, hq]
      rw [this] at h
      obtain ⟨h1, h2⟩ := ih _ _ h
      refine ⟨fun x hx => ?_, fun x hx => ?_⟩
      · by_cases hxp : x ∈ ps
        · exact h1 x hxp
        · have hx' : x = p := by simpa [hxp] using hx
          subst hx'
          exact ⟨q, hq, by rw [h2 _ hxp, Dict.get?_set_self]⟩
      · rw [h2 x (fun h' => hx (by simp [h'])), Dict.get?_set_ne _ _ (fun h' => hx (by simp [h']))]

theorem pourFold_ok {fuel : ℕ} {l : List ℤ} : ∀ (ps : List ℤ) (g0 : Dict ℤ ℤ),
    (∀ p ∈ ps, ∃ q, nextPour fdir l p fuel p [] = .ok q) →
    ∃ g, ps.foldl (graphStep fuel fdir l) (.ok g0) = .ok g := by
  intro ps
  induction ps with
  | nil => intro g0 _; exact ⟨g0, rfl⟩
  | cons p ps ih =>
    intro g0 h
    obtain ⟨q, hq⟩ := h p (by simp)
    rw [List.foldl_cons]
    have : graphStep fuel fdir l (.ok g0) p = .ok (g0.set p q) := by simp [graphStep, hq]
    rw [this]
    exact ih _ (fun p hp => h p (by simp [hp]))

theorem pourGraph_same {fuel : ℕ} {l m : List ℤ} (h : ∀ x, x ∈ l ↔ x ∈ m) {g : Dict ℤ ℤ}
    (hg : pourGraph fuel fdir l = .ok g) : ∃ g', pourGraph fuel fdir m = .ok g' ∧ Same g g' := by
  obtain ⟨h1, h2⟩ := pourFold_get l [] g hg
  obtain ⟨g', hg'⟩ := pourFold_ok (fdir := fdir) (fuel := fuel) (l := m) m [] (by
    intro p hp
    obtain ⟨q, hq, _⟩ := h1 p ((h p).2 hp)
    exact ⟨q, by rw [← nextPour_same h]; exact hq⟩)
  refine ⟨g', hg', fun x => ?_⟩
  obtain ⟨h1', h2'⟩ := pourFold_get m [] g' hg'
  by_cases hx : x ∈ l
  · obtain ⟨q, hq, e⟩ := h1 x hx
    obtain ⟨q', hq', e'⟩ := h1' x ((h x).1 hx)
    rw [nextPour_same h] at hq
    rw [hq] at hq'
    cases hq'
    rw [e, e']
  · rw [h2 x hx, h2' x (fun h' => hx ((h x).2 h'))]

theorem pourGraph_nodup {fuel : ℕ} {l : List ℤ} {g : Dict ℤ ℤ} (hg : pourGraph fuel fdir l = .ok g) :
    g.keys.Nodup := by
  have key : ∀ (ps : List ℤ) (r : Res (Dict ℤ ℤ)), (∀ g, r = .ok g → g.keys.Nodup) →
      ∀ g, ps.foldl (graphStep fuel fdir l) r = .ok g → g.keys.Nodup := by
    intro ps
    induction ps with
    | nil => intro r h; exact h
    | cons p ps ih =>
      intro r h
      rw [List.foldl_cons]
      apply ih
      intro g hg
      obtain ⟨g0, h0, h1⟩ := Res.bind_eq_ok.1 hg
      obtain ⟨q, _, h2⟩ := Res.bind_eq_ok.1 h1
      cases h2
      exact Dict.nodup_keys_set (h g0 h0) _ _
  exact key l (.ok []) (by rintro g h; cases h; simp) g hg

/-- the pour points are solved in an order that only depends on the set of cells they lie in -/
theorem pourOrder_same {limit fuel : ℕ} {l m : List ℤ} (h : ∀ x, x ∈ l ↔ x ∈ m) {g : Dict ℤ ℤ}
    (hg : pourGraph fuel fdir l = .ok g) : pourOrder limit fuel fdir l = pourOrder limit fuel fdir m := by
  obtain ⟨g', hg', hs⟩ := pourGraph_same h hg
  unfold pourOrder
  rw [hg, hg', Res.bind_ok, Res.bind_ok]
  have key : ∀ {g : Dict ℤ ℤ}, g.keys.Nodup → addConnections (g ++ [(-1, -1)]) = g.set (-1) (-1) := by
    intro g hn
    have := addConnections_nodup hn
    unfold addConnections at this ⊢
    rw [List.foldl_append, this]
    rfl
  rw [key (pourGraph_nodup hg), key (pourGraph_nodup hg'), sort_same (hs.set (-1) (-1))]

theorem pointCell_same {a b : List (Fin N)} (h : ∀ c, c ∈ a ↔ c ∈ b) (x : ℤ) : pointCell a x = pointCell b x := by
  unfold pointCell
  have key : a.find? (fun c : Fin N => decide (((c : ℕ) : ℤ) = x)) =
      b.find? (fun c : Fin N => decide (((c : ℕ) : ℤ) = x)) := by
    have half : ∀ {a b : List (Fin N)}, (∀ c, c ∈ a ↔ c ∈ b) → ∀ c,
        a.find? (fun c : Fin N => decide (((c : ℕ) : ℤ) = x)) = some c →
        b.find? (fun c : Fin N => decide (((c : ℕ) : ℤ) = x)) = some c := by
      intro a b h c hc
      have h1 := List.mem_of_find?_eq_some hc
      have h2 := List.find?_some hc
      simp only [decide_eq_true_eq] at h2
      cases hb : b.find? (fun c : Fin N => decide (((c : ℕ) : ℤ) = x)) with
      | none =>
        have := List.find?_eq_none.1 hb c ((h c).1 h1)
        simp [h2] at this
      | some c' =>
        have h3 := List.find?_some hb
        simp only [decide_eq_true_eq] at h3
        have : c' = c := Fin.ext (by omega)
        rw [this]
    cases ha : a.find? (fun c : Fin N => decide (((c : ℕ) : ℤ) = x)) with
    | some c => exact (half h c ha).symm
    | none =>
      cases hb : b.find? (fun c : Fin N => decide (((c : ℕ) : ℤ) = x)) with
      | none => rfl
      | some c =>
        have := half (fun c => (h c).symm) c hb
        rw [ha] at this; cases this
  rw [key]

theorem pointCells_same {a b : List (Fin N)} (h : ∀ c, c ∈ a ↔ c ∈ b) : ∀ (l : List ℤ),
    pointCells a l = pointCells b l := by
  intro l
  induction l with
  | nil => rfl
  | cons x l ih => simp only [pointCells, pointCell_same h, ih]

theorem subbasins_same {limit fuel : ℕ} {s : State N} {cells cells' : List (Fin N)}
    (h : ∀ c, c ∈ cells ↔ c ∈ cells') {g : Dict ℤ ℤ}
    (hg : pourGraph fuel s.fdir (cells.map (fun c : Fin N => ((c : ℕ) : ℤ))) = .ok g) :
    subbasins limit fuel s cells = subbasins limit fuel s cells' := by
  have hm : ∀ x : ℤ, x ∈ cells.map (fun c : Fin N => ((c : ℕ) : ℤ)) ↔
      x ∈ cells'.map (fun c : Fin N => ((c : ℕ) : ℤ)) := by
    intro x
    simp only [List.mem_map, h]
  unfold subbasins
  rw [pourOrder_same hm hg]
  simp only [pointCells_same h]

/-- **C171** (order and repetition).  For any flow directions, cyclic or with codes that are no cells, and any
pour points, cell 0 included: two lists of pour points that lie in the same cells, in whatever order and
however often, give the same result, numbers included, or neither call returns.
(flow_directions.py:543-624) -/
theorem C171_order (limit fuel : ℕ) (s : State N) {cells cells' : List (Fin N)}
    (h : ∀ c, c ∈ cells ↔ c ∈ cells') (r : State N × (Fin N → ℕ)) :
    subbasins limit fuel s cells = .ok r ↔ subbasins limit fuel s cells' = .ok r := by
  have half : ∀ {cells cells' : List (Fin N)}, (∀ c, c ∈ cells ↔ c ∈ cells') →
      subbasins limit fuel s cells = .ok r → subbasins limit fuel s cells' = .ok r := by
    intro cells cells' h hr
    obtain ⟨o, ho, _⟩ := Res.bind_eq_ok.1 hr
    obtain ⟨g, hg, _⟩ := Res.bind_eq_ok.1 ho
    rw [← subbasins_same h hg]
    exact hr
  exact ⟨half h, half fun c => (h c).symm⟩

/-- **C171** (legal directions, pour points off flow cycles): also the exception is the same. -/
theorem C171_exception {s : State N} (hd : Legal s.fdir d) {cells cells' : List (Fin N)}
    (h : ∀ c, c ∈ cells ↔ c ∈ cells') (hcyc : ∀ c ∈ cells, ¬ OnCycle d c) {fuel : ℕ} (hf : N + 1 < fuel)
    (limit : ℕ) : subbasins limit fuel s cells = subbasins limit fuel s cells' := by
  obtain ⟨g, hg, _⟩ := pourGraph_ok hd hcyc hf
  exact subbasins_same h hg

/-! ### More pour points -/

/-- **C172** (refinement).  Adding pour points only divides subbasins: two cells in the same subbasin of the
larger set of points are in the same one (or both in none) of the smaller set. (flow_directions.py:543-624) -/
theorem C172_refine {s s1 s2 t : State N} (hd : Legal s.fdir d) (hs : Fresh s) (ht : Fresh t)
    (hst : t.fdir = s.fdir) {cells more : List (Fin N)} (hsub : ∀ c ∈ cells, c ∈ more)
    (h0 : ∀ c ∈ more, c.val ≠ 0) (hcyc : ∀ c ∈ more, ¬ OnCycle d c) {limit limit' fuel fuel' : ℕ}
    (hf : 2 * N + 1 < fuel) (hf' : 2 * N + 1 < fuel') {out fine : Fin N → ℕ}
    (hr : subbasins limit fuel s cells = .ok (s1, out))
    (hr' : subbasins limit' fuel' t more = .ok (s2, fine)) {u v : Fin N} (hu : fine u = fine v)
    (hne : fine u ≠ 0) : out u = out v := by
  obtain ⟨lab, _, _, _, hfirst, hnone⟩ := C38_returned hd hs (fun c hc => h0 c (hsub c hc))
    (fun c hc => hcyc c (hsub c hc)) hf hr
  obtain ⟨lab', _, hinj', _, hfirst', hnone'⟩ := C38_returned (s := t) (by rw [hst]; exact hd) ht h0 hcyc hf' hr'
  have hp : ∀ w, fine w ≠ 0 → ∃ p, FirstOn d (· ∈ more) w p := by
    intro w hw
    by_contra hno
    exact hw (hnone' w fun p hp hreach => hno (exists_first (S := (· ∈ more)) hp hreach))
  obtain ⟨p, hpu⟩ := hp u hne
  obtain ⟨q, hqv⟩ := hp v (by rw [← hu]; exact hne)
  have hpq : p = q := by
    refine hinj' p ?_ q ?_ ?_
    · obtain ⟨_, _, h, _⟩ := hpu; exact h
    · obtain ⟨_, _, h, _⟩ := hqv; exact h
    · rw [← hfirst' u p hpu, ← hfirst' v q hqv, hu]
  subst hpq
  -- what lies downstream of the common pour point decides
  have hdown : ∀ w, FirstOn d (· ∈ more) w p → ∀ c, FirstOn d (· ∈ cells) w c ↔ FirstOn d (· ∈ cells) p c := by
    rintro w ⟨k, hk, _, hbefore⟩ c
    constructor
    · rintro ⟨j, hj, hc, hb⟩
      have hkj : k ≤ j := by
        by_contra hlt
        exact hbefore j (by omega) (by rw [hj]; exact hsub c hc)
      refine ⟨j - k, ?_, hc, fun i hi => ?_⟩
      · rw [← hk, ← Function.iterate_add_apply, Nat.sub_add_cancel hkj, hj]
      · rw [← hk, ← Function.iterate_add_apply]
        exact hb _ (by omega)
    · rintro ⟨j, hj, hc, hb⟩
      refine ⟨j + k, ?_, hc, fun i hi => ?_⟩
      · rw [Function.iterate_add_apply, hk, hj]
      · by_cases hik : i < k
        · exact fun h => hbefore i hik (hsub _ h)
        · have := hb (i - k) (by omega)
          rw [← hk, ← Function.iterate_add_apply, Nat.sub_add_cancel (by omega)] at this
          exact this
  have hval : ∀ w, FirstOn d (· ∈ more) w p → out w = out p := by
    intro w hw
    by_cases hex : ∃ c, FirstOn d (· ∈ cells) p c
    · obtain ⟨c, hc⟩ := hex
      rw [hfirst p c hc, hfirst w c ((hdown w hw c).2 hc)]
    · have hn : ∀ w', (∀ c, ¬ FirstOn d (· ∈ cells) w' c) → out w' = 0 := fun w' hw' =>
        hnone w' fun c hc hreach => by
          obtain ⟨q, hq⟩ := exists_first (S := (· ∈ cells)) hc hreach
          exact hw' q hq
      rw [hn p (fun c hc => hex ⟨c, hc⟩), hn w (fun c hc => hex ⟨c, (hdown w hw c).1 hc⟩)]
  rw [hval u hpu, hval v hqv]

/-- **C172** (the others stay).  A subbasin of the smaller set without an added pour point in it is a subbasin of
the larger set, cell by cell. -/
theorem C172_stay {s s1 s2 t : State N} (hd : Legal s.fdir d) (hs : Fresh s) (ht : Fresh t)
    (hst : t.fdir = s.fdir) {cells more : List (Fin N)} (hsub : ∀ c ∈ cells, c ∈ more)
    (h0 : ∀ c ∈ more, c.val ≠ 0) (hcyc : ∀ c ∈ more, ¬ OnCycle d c) {limit limit' fuel fuel' : ℕ}
    (hf : 2 * N + 1 < fuel) (hf' : 2 * N + 1 < fuel') {out fine : Fin N → ℕ}
    (hr : subbasins limit fuel s cells = .ok (s1, out))
    (hr' : subbasins limit' fuel' t more = .ok (s2, fine)) {p : Fin N} (hp : p ∈ cells)
    (hnew : ∀ c ∈ more, out c = out p → c ∈ cells) (u : Fin N) : out u = out p ↔ fine u = fine p := by
  obtain ⟨lab, hpos, hinj, _, hfirst, hnone⟩ := C38_returned hd hs (fun c hc => h0 c (hsub c hc))
    (fun c hc => hcyc c (hsub c hc)) hf hr
  obtain ⟨lab', hpos', hinj', _, hfirst', hnone'⟩ := C38_returned (s := t) (by rw [hst]; exact hd) ht h0 hcyc hf' hr'
  have hself : FirstOn d (· ∈ cells) p p := ⟨0, rfl, hp, by simp⟩
  have hself' : FirstOn d (· ∈ more) p p := ⟨0, rfl, hsub p hp, by simp⟩
  have hp0 : out p ≠ 0 := by rw [hfirst p p hself]; have := (hpos p hp).1; omega
  have hp0' : fine p ≠ 0 := by rw [hfirst' p p hself']; have := (hpos' p (hsub p hp)).1; omega
  constructor
  · intro hu
    have hex : ∃ q, FirstOn d (· ∈ cells) u q := by
      by_contra hno
      refine hp0 ?_
      rw [← hu]
      exact hnone u fun q hq hreach => hno (exists_first (S := (· ∈ cells)) hq hreach)
    obtain ⟨q, hq⟩ := hex
    have hqp : q = p := by
      refine hinj q (by obtain ⟨_, _, h, _⟩ := hq; exact h) p hp ?_
      rw [← hfirst u q hq, hu, hfirst p p hself]
    subst hqp
    obtain ⟨k, hk, _, hb⟩ := hq
    have hq' : FirstOn d (· ∈ more) u q := by
      refine ⟨k, hk, hsub q hp, fun j hj hmem => ?_⟩
      have hj' : FirstOn d (· ∈ cells) (d^[j] u) q := by
        refine ⟨k - j, ?_, hp, fun i hi => ?_⟩
        · rw [← Function.iterate_add_apply, Nat.sub_add_cancel (by omega), hk]
        · rw [← Function.iterate_add_apply]; exact hb _ (by omega)
      exact hb j hj (hnew _ hmem (by rw [hfirst _ q hj', hfirst q q hself]))
    rw [hfirst' u q hq', hfirst' q q hself']
  · intro hu
    exact C172_refine hd hs ht hst hsub h0 hcyc hf hf' hr hr' hu (by rw [hu]; exact hp0')

/-! ### Examples -/

/-- `4 → 3 → 2 → 1 → 0 → 0` and `5 → 2` -/
def exO : State 6 := { fdir := ![0, 0, 1, 2, 3, 2], fdirR := none }

/-- the same directions as cells -/
def exOd : Fin 6 → Fin 6 := ![0, 0, 1, 2, 3, 2]

theorem exO_legal : Legal exO.fdir exOd := by unfold Legal; decide +kernel
theorem exO_fresh : Fresh exO := by intro r hr; cases hr
theorem exO_acyclic : ∀ c, ¬ OnCycle exOd c := by
  rintro c ⟨hne, k, hk⟩
  have h5 : ∀ c : Fin 6, exOd^[5] c = 0 := by decide +kernel
  have hz : ∀ m, exOd^[(k + 1) * m] c = c := by
    intro m
    induction m with
    | zero => rfl
    | succ m ih => rw [Nat.mul_succ, Function.iterate_add_apply, hk, ih]
  have h1 := hz 5
  have h2 : (k + 1) * 5 = 5 * k + 5 := by omega
  rw [h2, Function.iterate_add_apply, h5 c, Function.iterate_fixed (by decide)] at h1
  rw [← h1] at hne
  exact hne (by decide)

example : (subbasins 12 20 exO [1, 3, 5]).map Prod.snd = .ok ![0, 3, 3, 2, 2, 1] := by decide +kernel
example : (subbasins 12 20 exO [5, 3, 1, 3]).map Prod.snd = .ok ![0, 3, 3, 2, 2, 1] := by decide +kernel
-- the same by C171, for every recursion limit
example (limit : ℕ) (r : State 6 × (Fin 6 → ℕ)) (h : subbasins limit 20 exO [1, 3, 5] = .ok r) :
    subbasins limit 20 exO [5, 3, 1, 3] = .ok r :=
  (C171_order limit 20 exO (by decide) r).1 h
-- one point fewer: cells 3 and 4 belong to the point downstream, cell 5 keeps its subbasin
example : (subbasins 12 20 exO [1, 5]).map Prod.snd = .ok ![0, 2, 2, 2, 2, 1] := by decide +kernel
-- the hypotheses of C172 on these two calls
example : (∀ c ∈ ([1, 5] : List (Fin 6)), c ∈ ([1, 3, 5] : List (Fin 6))) ∧
    (∀ c ∈ ([1, 3, 5] : List (Fin 6)), c.val ≠ 0) ∧ (∀ c ∈ ([1, 3, 5] : List (Fin 6)), ¬ OnCycle exOd c) ∧
    (∀ c ∈ ([1, 3, 5] : List (Fin 6)), (![0, 2, 2, 2, 2, 1] : Fin 6 → ℕ) c = 1 → c ∈ ([1, 5] : List (Fin 6))) := by
  exact ⟨by decide, by decide, fun c _ => exO_acyclic c, by decide⟩

end Dany.Basin
