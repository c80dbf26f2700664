import Verif.Ints.Model
import Verif.Flood.Witness

/-!
# Properties C82, C83: sink filling of an integer DEM
-/

namespace Dany.Ints

open Flood Function

variable {N : ℕ} {V : Type*} [LinearOrder V]

/-! ### two increments that agree on the values that occur give the same run -/

theorem visit_congr {S : V → Prop} {r r' : V → V} (h : ∀ x, S x → r x = r' x)
    (streams : Bool) (seed : List (Fin N)) (c : Fin N) (s : PF N V) (n : ℕ) (hs : ∀ k, S (s.dem k)) :
    visit r streams seed c s n = visit r' streams seed c s n := by
  unfold visit raiseInto
  simp only [h _ (hs c)]

theorem visit_keeps {S : V → Prop} {r : V → V} (hr : ∀ x, S x → S (r x))
    (streams : Bool) (seed : List (Fin N)) (c : Fin N) (s : PF N V) (n : ℕ) (hs : ∀ k, S (s.dem k)) :
    ∀ k, S ((visit r streams seed c s n).dem k) := by
  have up : ∀ m : Fin N, ∀ k, S (update s.dem m (r (s.dem c)) k) := by
    intro m k
    by_cases hk : k = m
    · subst hk; rw [update_self]; exact hr _ (hs c)
    · rw [update_of_ne hk]; exact hs k
  intro k
  unfold visit raiseInto
  split
  · dsimp only
    split
    · exact hs k
    · split
      · split
        · split
          · exact up _ k
          · split
            · exact up _ k
            · exact hs k
        · exact up _ k
      · exact hs k
  · exact hs k

theorem fold_congr {S : V → Prop} {r r' : V → V} (h : ∀ x, S x → r x = r' x)
    (hr : ∀ x, S x → S (r x)) (streams : Bool) (seed : List (Fin N)) (c : Fin N) (l : List ℕ)
    (s : PF N V) (hs : ∀ k, S (s.dem k)) :
    l.foldl (visit r streams seed c) s = l.foldl (visit r' streams seed c) s ∧
      ∀ k, S ((l.foldl (visit r streams seed c) s).dem k) := by
  induction l generalizing s with
  | nil => exact ⟨rfl, hs⟩
  | cons n l ih =>
    simp only [List.foldl_cons]
    rw [← visit_congr h streams seed c s n hs]
    exact ih _ (visit_keeps hr streams seed c s n hs)

theorem foldl_min_mem (l : List V) (e : V) : l.foldl min e ∈ e :: l := by
  induction l generalizing e with
  | nil => simp
  | cons a l ih =>
    have := ih (min e a)
    simp only [List.foldl_cons, List.mem_cons] at this ⊢
    rcases this with h | h
    · rw [h]
      rcases min_choice e a with h' | h'
      · exact .inl h'
      · exact .inr (.inl h')
    · exact .inr (.inr h)

theorem burn_congr {S : V → Prop} {r r' : V → V} (h : ∀ x, S x → r x = r' x)
    (hr : ∀ x, S x → S (r x)) (streams : Bool) (nbr : Fin N → List ℕ) (seed : List (Fin N)) (c : Fin N)
    (d : Fin N → V) (hs : ∀ k, S (d k)) :
    burn r streams nbr seed c d = burn r' streams nbr seed c d ∧
      ∀ k, S (burn r streams nbr seed c d k) := by
  unfold burn
  split
  · rcases he : streamElevs nbr seed c d with _ | ⟨e, _ | ⟨e', es⟩⟩
    · exact ⟨rfl, hs⟩
    · exact ⟨rfl, hs⟩
    · have hm : S ((e' :: es).foldl min e) := by
        have hmem : (e' :: es).foldl min e ∈ streamElevs nbr seed c d := by
          rw [he]; exact foldl_min_mem _ _
        unfold streamElevs at hmem
        obtain ⟨k, _, hk⟩ := List.mem_map.1 hmem
        rw [← hk]; exact hs k
      dsimp only
      rw [h _ hm]
      split
      · refine ⟨rfl, fun k => ?_⟩
        by_cases hk : k = c
        · subst hk; rw [update_self, ← h _ hm]; exact hr _ hm
        · rw [update_of_ne hk]; exact hs k
      · exact ⟨rfl, hs⟩
  · exact ⟨rfl, hs⟩

theorem popNext_dem {s s' : PF N V} {c : Fin N} (h : popNext s = some (c, s')) : s'.dem = s.dem := by
  unfold popNext at h
  split at h
  · cases h; rfl
  · split at h
    · cases h
    · cases h; rfl

theorem pfLoop_congr {S : V → Prop} {r r' : V → V} (h : ∀ x, S x → r x = r' x)
    (hr : ∀ x, S x → S (r x)) (streams : Bool) (nbr : Fin N → List ℕ) (seed : List (Fin N)) (fuel : ℕ)
    (s : PF N V) (hs : ∀ k, S (s.dem k)) :
    pfLoop r streams nbr seed fuel s = pfLoop r' streams nbr seed fuel s := by
  induction fuel generalizing s with
  | zero => rfl
  | succ k ih =>
    unfold pfLoop
    rcases hp : popNext s with _ | ⟨c, s'⟩
    · rfl
    · have hs' : ∀ k, S (s'.dem k) := by rw [popNext_dem hp]; exact hs
      obtain ⟨hb, hbS⟩ := burn_congr h hr streams nbr seed c s'.dem hs'
      dsimp only
      have hproc := fold_congr h hr streams seed c (nbr c)
        { s' with dem := burn r streams nbr seed c s'.dem, done := s'.done ++ [c] } hbS
      unfold process
      rw [← hb, ← hproc.1]
      exact ih _ hproc.2

theorem priorityFlood_congr {S : V → Prop} {r r' : V → V} (h : ∀ x, S x → r x = r' x)
    (hr : ∀ x, S x → S (r x)) (streams : Bool) (nbr : Fin N → List ℕ) (seed : List (Fin N)) (fuel : ℕ)
    (dem : Fin N → V) (hs : ∀ k, S (dem k)) :
    priorityFlood fuel r streams nbr dem seed = priorityFlood fuel r' streams nbr dem seed := by
  unfold priorityFlood
  rw [pfLoop_congr h hr streams nbr seed fuel (pfInit dem seed) hs]

/-! ### truncation -/

theorem raiseInt_nonneg {eps : ℚ} (h0 : 0 ≤ eps) (h1 : eps < 1) {x : ℤ} (hx : 0 ≤ x) :
    raiseInt eps x = x := by
  have hx' : (0 : ℚ) ≤ x := by exact_mod_cast hx
  unfold raiseInt store
  rw [if_neg (by linarith)]
  rw [Int.floor_eq_iff]
  constructor <;> linarith

theorem raiseInt_neg {eps : ℚ} (h0 : 0 < eps) (h1 : eps ≤ 1) {x : ℤ} (hx : x < 0) :
    raiseInt eps x = x + 1 := by
  have hx' : (x : ℚ) ≤ -1 := by exact_mod_cast (by omega : x ≤ -1)
  unfold raiseInt store
  split
  · rw [Int.ceil_eq_iff]; push_cast; constructor <;> linarith
  · rename_i h
    have : (x : ℚ) = -1 := by
      have h2 : (-1 : ℚ) ≤ x := by linarith
      linarith
    have hx1 : x = -1 := by exact_mod_cast this
    subst hx1
    rw [Int.floor_eq_iff]; push_cast
    push_cast at h
    constructor <;> linarith

theorem store_mono : Monotone store := by
  intro a b h
  unfold store
  split_ifs with h1 h2 h2
  · exact Int.ceil_mono h
  · have : ⌈a⌉ ≤ 0 := by rw [Int.ceil_le]; push_cast; linarith
    have : 0 ≤ ⌊b⌋ := Int.floor_nonneg.2 (by linarith)
    omega
  · exact absurd (lt_of_le_of_lt h h2) h1
  · exact Int.floor_mono h

theorem store_int (x : ℤ) : store (x : ℚ) = x := by
  unfold store; split <;> simp

theorem raiseInt_infl {eps : ℚ} (h0 : 0 ≤ eps) (x : ℤ) : x ≤ raiseInt eps x := by
  have := store_mono (show (x : ℚ) ≤ x + eps by linarith)
  rwa [store_int] at this

theorem raiseInt_strict {eps : ℚ} (h1 : 1 ≤ eps) (x : ℤ) : x < raiseInt eps x := by
  have := store_mono (show ((x + 1 : ℤ) : ℚ) ≤ x + eps by push_cast; linarith)
  rw [store_int] at this
  unfold raiseInt; omega

theorem raiseInt_mono (eps : ℚ) : Monotone (raiseInt eps) := by
  intro a b h
  have h' : (a : ℚ) ≤ b := by exact_mod_cast h
  exact store_mono (by linarith)

/-! ### the run on integers -/

/-- The method that is run, and how. -/
theorem fillSinksInt_flood {fuel : ℕ} {eps flood : ℚ} {g : Grid N} {dem : Fin N → ℤ}
    {mask : Option (Fin N → Bool)} {method : String} (heff : effective mask method ≠ .drain) :
    fillSinksInt fuel eps flood g dem mask method =
      (fillSinks fuel (raiseInt eps) 0 g dem mask method).map fun r n => (r n : ℚ) := by
  have hpc : ("priority" : String) ≠ "complete" := by decide
  unfold fillSinksInt
  have e : ∀ (m : Option (Fin N → Bool)) (a b : String), effective m a = effective m b →
      fillSinks fuel (raiseInt eps) 0 g dem m a = fillSinks fuel (raiseInt eps) 0 g dem m b := by
    intro m a b hab
    unfold fillSinks
    congr 1; funext edge
    rw [fillFrom_eq, fillFrom_eq]
    unfold effRaise
    rw [hab]
  cases mask with
  | none =>
    unfold effective at heff
    simp only [Option.isSome_none, Bool.false_eq_true, if_false, or_false] at heff ⊢
    rw [if_pos]
    by_contra hc
    push Not at hc
    simp [hc.1, hc.2] at heff
  | some m =>
    simp only [Option.isSome_some, if_true]
    by_cases hm : method.toLower = "priority" ∨ method.toLower = "complete"
    · rw [if_pos hm, if_pos hm]
    · rw [if_neg hm, if_pos (by simp [lower_priority])]
      rw [e (some m) "priority" method]
      push Not at hm
      unfold effective
      simp [lower_priority, hm.2]

/-- **C83** (integer DEM, exact).  On an integer array of non-negative elevations an `eps` below 1 has
no effect: 'priority' returns what 'complete' returns, with or without a stream mask. -/
theorem C83_priority_is_complete {fuel : ℕ} {eps eps' flood flood' : ℚ} {g : Grid N} {dem : Fin N → ℤ}
    {mask : Option (Fin N → Bool)} {method method' : String} (h0 : 0 ≤ eps) (h1 : eps < 1)
    (hdem : ∀ n, 0 ≤ dem n) (heff : effective mask method = .priority)
    (heff' : effective mask method' = .complete) :
    fillSinksInt fuel eps flood g dem mask method = fillSinksInt fuel eps' flood' g dem mask method' := by
  rw [fillSinksInt_flood (by simp [heff]), fillSinksInt_flood (by simp [heff'])]
  congr 1
  unfold fillSinks
  congr 1; funext edge
  rw [fillFrom_eq, fillFrom_eq, heff, heff']
  have e1 : effRaise (raiseInt eps) mask method = raiseInt eps := by
    unfold effRaise; rw [heff]; rfl
  have e2 : effRaise (raiseInt eps') mask method' = id := by
    unfold effRaise; rw [heff']; rfl
  rw [e1, e2]
  simp only [reduceCtorEq, if_false]
  cases mask with
  | none =>
    exact priorityFlood_congr (S := fun x => 0 ≤ x) (fun x hx => raiseInt_nonneg h0 h1 hx)
      (fun x hx => by rw [raiseInt_nonneg h0 h1 hx]; exact hx) _ _ _ _ _ hdem
  | some m =>
    exact priorityFlood_congr (S := fun x => 0 ≤ x) (fun x hx => raiseInt_nonneg h0 h1 hx)
      (fun x hx => by rw [raiseInt_nonneg h0 h1 hx]; exact hx) _ _ _ _ _ hdem

/-- In terms of the specification: the spill elevation. -/
theorem C83_spill {fuel : ℕ} {eps flood : ℚ} {g : Grid N} {dem : Fin N → ℤ} {out : Fin N → ℚ}
    {method : String} (h0 : 0 ≤ eps) (h1 : eps < 1) (hdem : ∀ n, 0 ≤ dem n)
    (hmeth : method.toLower = "priority")
    (h : fillSinksInt fuel eps flood g dem none method = .ok out) (n : Fin N)
    (hn : Reach g.nbr (Edge.OnEdge g.iverts) n) :
    ∃ z : ℤ, out n = z ∧ IsSpill g.nbr dem (Edge.OnEdge g.iverts) n z := by
  have hc : ("complete" : String).toLower = "complete" := by decide +kernel
  rw [C83_priority_is_complete (eps' := 0) (flood' := 0) (method' := "complete") h0 h1 hdem
    (by simp [effective, hmeth]) (by simp [effective, hc]),
    fillSinksInt_flood (by simp [effective, hc])] at h
  obtain ⟨r, hr, hro⟩ := Res.map_eq_ok.1 h
  exact ⟨r n, by rw [← hro], C06_spill hc hr n hn⟩

/-- **C82, refuted.**  On an integer array of non-negative elevations with `eps < 1`, every connected
interior cell that has no lower neighbour in the input still has none in the result of 'priority':
no strictly descending step leaves it. -/
theorem C82_refuted {fuel : ℕ} {eps flood : ℚ} {g : Grid N} {dem : Fin N → ℤ} {out : Fin N → ℚ}
    {method : String} (h0 : 0 ≤ eps) (h1 : eps < 1) (hdem : ∀ n, 0 ≤ dem n)
    (hsym : SymmNbr g.nbr) (hmeth : method.toLower = "priority")
    (h : fillSinksInt fuel eps flood g dem none method = .ok out) (n : Fin N)
    (hn : Reach g.nbr (Edge.OnEdge g.iverts) n) (hin : ¬ Edge.OnEdge g.iverts n)
    (hpit : ∀ m, Adj g.nbr n m → dem n ≤ dem m) :
    (∀ m, Adj g.nbr n m → out n ≤ out m) ∧ ¬ Drains (· < ·) g.nbr out (Edge.OnEdge g.iverts) n := by
  have hall : ∀ m, Adj g.nbr n m → out n ≤ out m := by
    intro m hm
    obtain ⟨zn, hzn, hsn⟩ := C83_spill h0 h1 hdem hmeth h n hn
    obtain ⟨zm, hzm, hsm⟩ := C83_spill h0 h1 hdem hmeth h m (.step hn hm)
    have hp := PathTop.step hsm.1 (hsym _ _ hm)
    have hge : dem m ≤ zm := by
      have key : ∀ k v, PathTop g.nbr dem (Edge.OnEdge g.iverts) k v → dem k ≤ v := by
        intro k v hv
        cases hv with
        | seed _ => exact le_refl _
        | step _ _ => exact le_max_right _ _
      exact key m zm hsm.1
    have := hsn.2 hp
    rw [max_eq_left ((hpit m hm).trans hge)] at this
    rw [hzn, hzm]
    exact_mod_cast this
  refine ⟨hall, fun hd => ?_⟩
  cases hd with
  | outlet hs => exact hin hs
  | step ha hlt _ => exact absurd hlt (not_lt.2 (hall _ ha))

/-- **C82, partial.**  What remains of C03 on integer arrays: with `eps ≥ 1` filling does drain every
connected cell strictly. -/
theorem C82_large_eps_partial {fuel : ℕ} {eps flood : ℚ} {g : Grid N} {dem : Fin N → ℤ}
    {out : Fin N → ℚ} {mask : Option (Fin N → Bool)} {method : String} (h1 : 1 ≤ eps)
    (hsym : SymmNbr g.nbr) (heff : effective mask method = .priority)
    (h : fillSinksInt fuel eps flood g dem mask method = .ok out) (n : Fin N)
    (hn : Reach g.nbr (Outlet g mask) n) : Drains (· < ·) g.nbr out (Outlet g mask) n := by
  rw [fillSinksInt_flood (by simp [heff])] at h
  obtain ⟨r, hr, hro⟩ := Res.map_eq_ok.1 h
  have := C03_drains_strictly (raiseInt_strict h1) hsym heff hr n hn
  subst hro
  clear hn hr h
  induction this with
  | outlet hs => exact .outlet hs
  | step ha hlt _ ih => exact .step ha (by exact_mod_cast hlt) ih

/-- Where C01, C02 hold as before: cells are never lowered, edge cells keep their elevation. -/
theorem C82_still_partial {fuel : ℕ} {eps flood : ℚ} {g : Grid N} {dem : Fin N → ℤ}
    {out : Fin N → ℚ} {mask : Option (Fin N → Bool)} {method : String} (h0 : 0 ≤ eps)
    (heff : effective mask method ≠ .drain)
    (h : fillSinksInt fuel eps flood g dem mask method = .ok out) (n : Fin N) :
    (dem n : ℚ) ≤ out n ∧ (mask = none → Edge.OnEdge g.iverts n → out n = dem n) := by
  rw [fillSinksInt_flood heff] at h
  obtain ⟨r, hr, hro⟩ := Res.map_eq_ok.1 h
  subst hro
  constructor
  · have := C01_never_lowers (raiseInt_infl h0) (fun hd => absurd hd heff) hr n
    beta_reduce
    exact_mod_cast this
  · rintro rfl he
    have := C02_edges_unchanged (raiseInt_infl h0) hr n he
    beta_reduce
    exact_mod_cast this

theorem raiseInt_iter_neg {eps : ℚ} (h0 : 0 < eps) (h1 : eps < 1) (k : ℕ) (x : ℤ) :
    (raiseInt eps)^[k] x = max x (min (x + k) 0) := by
  induction k generalizing x with
  | zero => simp
  | succ k ih =>
    rw [iterate_succ_apply, ih]
    rcases lt_or_ge x 0 with hx | hx
    · rw [raiseInt_neg h0 h1.le hx]; push_cast; omega
    · rw [raiseInt_nonneg h0.le h1 hx]; push_cast; omega

/-- **C83** (negative elevations).  Below sea level the truncation towards zero turns each `eps` into a
whole unit: the result lies between the spill elevation `w` and `w` plus `N` units, but not above 0 (or
`w`).  So with only non-negative spill elevations nothing is added. -/
theorem C83_negative {fuel : ℕ} {eps flood : ℚ} {g : Grid N} {dem : Fin N → ℤ} {out : Fin N → ℚ}
    {method : String} (h0 : 0 < eps) (h1 : eps < 1) (hmeth : method.toLower = "priority")
    (h : fillSinksInt fuel eps flood g dem none method = .ok out) (n : Fin N)
    (hn : Reach g.nbr (Edge.OnEdge g.iverts) n) :
    ∃ w : ℤ, IsSpill g.nbr dem (Edge.OnEdge g.iverts) n w ∧ (w : ℚ) ≤ out n ∧
      out n ≤ max (w : ℚ) (min ((w : ℚ) + N) 0) := by
  rw [fillSinksInt_flood (by simp [effective, hmeth])] at h
  obtain ⟨r, hr, hro⟩ := Res.map_eq_ok.1 h
  subst hro
  obtain ⟨w, hw, h2, h3⟩ := C09_overfill (raiseInt_infl h0.le) (raiseInt_mono eps) hmeth hr n hn
  refine ⟨w, hw, by beta_reduce; exact_mod_cast h2, ?_⟩
  rw [raiseInt_iter_neg h0 h1] at h3
  beta_reduce
  exact_mod_cast h3

/-! ### concrete runs -/

def demI : Fin 16 → ℤ := ![9, 9, 9, 9, 9, 1, 2, 7, 9, 8, 6, 9, 9, 9, 9, 5]
def outI : Fin 16 → ℚ := ![9, 9, 9, 9, 9, 6, 6, 7, 9, 8, 6, 9, 9, 9, 9, 5]

/-- The same DEM as `dem44`, as integers: the pit of cells 5 and 6 becomes flat. -/
theorem runI : fillSinksInt 17 (1/2) 100 g44 demI none "priority" = .ok outI := by decide +kernel

theorem in44 : ¬ Edge.OnEdge g44.iverts 5 := by
  have h : Edge.edgeNodes g44.iverts = .ok [0, 1, 2, 3, 4, 7, 8, 11, 12, 13, 14, 15] := by
    decide +kernel
  exact fun hc => absurd (((Edge.C15_edge_nodes h).2 5).2 hc) (by decide)

example : ¬ Drains (· < ·) g44.nbr outI (Edge.OnEdge g44.iverts) 5 :=
  (C82_refuted (by norm_num) (by norm_num) (by decide +kernel) symm44 (by decide +kernel) runI 5 reach44
    in44 (by unfold Adj; decide +kernel)).2
example : ∃ z : ℤ, outI 5 = z ∧ IsSpill g44.nbr demI (Edge.OnEdge g44.iverts) 5 z :=
  C83_spill (by norm_num) (by norm_num) (by decide +kernel) (by decide +kernel) runI 5 reach44
example : fillSinksInt 17 (1/2) 100 g44 demI none "priority" =
    fillSinksInt 17 (1/2) 100 g44 demI none "complete" :=
  C83_priority_is_complete (by norm_num) (by norm_num) (by decide +kernel) (by decide +kernel)
    (by decide +kernel)

def out2 : Fin 16 → ℚ := ![9, 9, 9, 9, 9, 8, 8, 7, 9, 8, 6, 9, 9, 9, 9, 5]
theorem run2 : fillSinksInt 17 2 100 g44 demI none "priority" = .ok out2 := by decide +kernel
example : Drains (· < ·) g44.nbr out2 (Edge.OnEdge g44.iverts) 5 :=
  C82_large_eps_partial (by norm_num) symm44 (by decide +kernel) run2 5 reach44

/-- Ten units lower: the two pit cells are raised by a whole unit above the spill elevation -4. -/
def demB : Fin 16 → ℤ := fun n => demI n - 10
def outB : Fin 16 → ℚ := ![-1, -1, -1, -1, -1, -3, -3, -3, -1, -2, -4, -1, -1, -1, -1, -5]
theorem runB : fillSinksInt 17 (1/500000) 100 g44 demB none "priority" = .ok outB := by decide +kernel
example : ∃ w : ℤ, IsSpill g44.nbr demB (Edge.OnEdge g44.iverts) 5 w ∧ (w : ℚ) ≤ outB 5 ∧
      outB 5 ≤ max (w : ℚ) (min ((w : ℚ) + (16 : ℕ)) 0) :=
  C83_negative (by norm_num) (by norm_num) (by decide +kernel) runB 5 reach44
example : (demB 5 : ℚ) ≤ outB 5 :=
  (C82_still_partial (by norm_num) (by decide +kernel) runB 5).1

end Dany.Ints
