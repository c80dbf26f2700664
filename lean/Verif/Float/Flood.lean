import Verif.Flood.Props

/-!
# Sink filling when adding eps raises only some elevations
-/

namespace Dany.Flood

open Function

variable {N : ℕ} {V : Type*} [LinearOrder V]

/-- The surface left by the flooding methods descends, or differs by one rounded increment, along a path of
neighbours from every connected cell to an outlet. -/
theorem drains_by_raise {fuel : ℕ} {raise : V → V} {flood : V} {g : Grid N} {dem out : Fin N → V}
    {mask : Option (Fin N → Bool)} {method : String} (hinf : ∀ x, x ≤ raise x)
    (hsym : SymmNbr g.nbr) (heff : effective mask method = .priority)
    (h : fillSinks fuel raise flood g dem mask method = .ok out) (n : Fin N)
    (hn : Reach g.nbr (Outlet g mask) n) :
    Drains (fun x y => x < y ∨ y = raise x) g.nbr out (Outlet g mask) n := by
  obtain ⟨seed, hs, hseed, ⟨_, t, ht, rfl⟩ | ⟨hd, h⟩⟩ := fillSinks_cases h
  · have hS : (fun n => n ∈ seed) = Outlet g mask := funext fun n => propext (hseed n)
    have hr : effRaise raise mask method = raise := by unfold effRaise; rw [heff]; rfl
    rw [hr] at ht
    rw [← hS] at hn ⊢
    exact drains_of_ok _ hsym hs hinf (fun _ => .inr rfl) (fun _ _ h => .inl h) fuel t ht n hn
  · rw [heff] at hd; cases hd

/-- **C03**, where adding eps need only raise the elevations that occur in the result. -/
theorem drains_where {fuel : ℕ} {raise : V → V} {flood : V} {g : Grid N} {dem out : Fin N → V}
    {mask : Option (Fin N → Bool)} {method : String} (hinf : ∀ x, x ≤ raise x)
    (hsym : SymmNbr g.nbr) (heff : effective mask method = .priority)
    (h : fillSinks fuel raise flood g dem mask method = .ok out)
    (hstrict : ∀ n, out n < raise (out n)) (n : Fin N)
    (hn : Reach g.nbr (Outlet g mask) n) : Drains (· < ·) g.nbr out (Outlet g mask) n := by
  have := drains_by_raise hinf hsym heff h n hn
  induction this with
  | outlet hs => exact .outlet hs
  | @step n c ha hr _ ih =>
    refine .step ha ?_ (ih ?_)
    · rcases hr with hr | hr
      · exact hr
      · rw [hr]; exact hstrict c
    · exact .step hn ha

/-! ### how high the surface can get -/

theorem burn_le {raise : V → V} (hinf : ∀ x, x ≤ raise x) (hmono : Monotone raise) (streams : Bool)
    (nbr : Fin N → List ℕ) (seed : List (Fin N)) (c : Fin N) (dem : Fin N → V) {X : V}
    (h : ∀ n, dem n ≤ X) (n : Fin N) : burn raise streams nbr seed c dem n ≤ raise X := by
  have h0 : dem n ≤ raise X := (h n).trans (hinf X)
  unfold burn
  split
  · rcases he : streamElevs nbr seed c dem with _ | ⟨e, _ | ⟨e', es⟩⟩
    · exact h0
    · exact h0
    · dsimp only
      split
      · have heX : e ≤ X := by
          have : e ∈ streamElevs nbr seed c dem := by rw [he]; simp
          unfold streamElevs at this
          obtain ⟨k, _, hk⟩ := List.mem_map.1 this
          rw [← hk]; exact h k
        have hmin : (e' :: es).foldl min e ≤ e := by
          have : ∀ (l : List V) (a : V), l.foldl min a ≤ a := by
            intro l
            induction l with
            | nil => intro a; exact le_refl _
            | cons b l ih => intro a; exact (ih _).trans (min_le_left _ _)
          exact this _ _
        by_cases hnc : n = c
        · subst hnc; rw [update_self]; exact hmono (hmin.trans heX)
        · rw [update_of_ne hnc]; exact h0
      · exact h0
  · exact h0

theorem foldVisit_le {raise : V → V} (hmono : Monotone raise) (streams : Bool) (seed : List (Fin N))
    (c : Fin N) (l : List ℕ) (s : PF N V) (hseed : ∀ n ∈ seed, s.closed n = true) (hc : s.closed c = true)
    {Y : V} (h1 : s.dem c ≤ Y) (h2 : ∀ n, s.dem n ≤ raise Y) (n : Fin N) :
    (l.foldl (visit raise streams seed c) s).dem n ≤ raise Y := by
  induction l generalizing s with
  | nil => exact h2 n
  | cons m l ih =>
    obtain ⟨hcl, _⟩ := visit_closed raise streams seed c s hseed m
    rw [List.foldl_cons]
    refine ih _ (fun n hn => hcl n (hseed n hn)) (hcl c hc) ?_ ?_
    · rw [visit_dem_closed _ _ _ _ _ hseed _ _ hc]; exact h1
    · intro n
      rcases visit_cases raise streams seed c s hseed m with ⟨h, _⟩ | ⟨hN, _, _, ⟨_, h⟩ | ⟨_, h⟩⟩
      · rw [h]; exact h2 n
      · rw [h]
        show update s.dem _ _ n ≤ _
        by_cases hn : n = ⟨m, hN⟩
        · subst hn; rw [update_self]; exact hmono h1
        · rw [update_of_ne hn]; exact h2 n
      · rw [h]; exact h2 n

/-- With or without a stream mask no elevation is raised more than `2 N` increments above the highest one. -/
theorem fillSinks_le {fuel : ℕ} {raise : V → V} {flood : V} {g : Grid N} {dem out : Fin N → V}
    {mask : Option (Fin N → Bool)} {method : String} (hinf : ∀ x, x ≤ raise x) (hmono : Monotone raise)
    (heff : effective mask method ≠ .drain)
    (h : fillSinks fuel raise flood g dem mask method = .ok out) {M : V} (hM : ∀ n, dem n ≤ M) (n : Fin N) :
    out n ≤ raise^[2 * N] M := by
  obtain ⟨seed, hs, hseed, ⟨_, t, ht, rfl⟩ | ⟨hd, h⟩⟩ := fillSinks_cases h
  · have hinf' := effRaise_infl hinf mask method
    have hmono' := effRaise_mono hmono mask method
    set r := effRaise raise mask method with hr
    obtain ⟨⟨hi, hb⟩, _⟩ := pfLoop_inv
      (fun s => Inv (· ≤ ·) g.nbr dem seed none s ∧ ∀ n, s.dem n ≤ r^[2 * s.done.length] M)
      (fun s c s' hi hp => by
        refine ⟨inv_process mask.isSome hinf' hinf' (fun _ _ h => h.le) hi.1 hp, ?_⟩
        obtain ⟨h0, hdem, hcl, hdone, hcnd, _⟩ := inv_pop (raise := r) mask.isSome hinf' hi.1 hp
        intro n
        rw [process_done, List.length_append, hdone, List.length_singleton, Nat.mul_add, mul_one,
          iterate_add_apply, show r^[2] M = r (r M) from rfl, ← iterate_succ_apply,
          ← iterate_succ_apply, iterate_succ_apply', iterate_succ_apply']
        have hbl := burn_le hinf' hmono' mask.isSome g.nbr seed c s.dem hi.2
        unfold process
        refine foldVisit_le hmono' mask.isSome seed c _ _ h0.seeds
          ((h0.cl c).2 (.inl (h0.curDone c rfl))) ?_ (fun n => ?_) n
        · show burn r mask.isSome g.nbr seed c s'.dem c ≤ _
          rw [hdem]; exact hbl c
        · show burn r mask.isSome g.nbr seed c s'.dem n ≤ _
          rw [hdem]; exact (hbl n).trans (hinf' _)) fuel _ t
      ⟨inv_init _ _ _ _ hs, by simpa [pfInit] using hM⟩ ht
    have hlen : t.done.length ≤ N := by
      simpa using (List.nodup_append.1 hi.nodup).1.length_le_card
    refine (hb n).trans ((monotone_iterate_of_id_le hinf' (show 2 * t.done.length ≤ 2 * N by omega) M).trans ?_)
    rw [hr]; unfold effRaise
    split
    · show id^[2 * N] M ≤ _
      rw [iterate_id]; exact monotone_iterate_of_id_le hinf (Nat.zero_le (2 * N)) M
    · exact le_refl _
  · exact absurd hd heff

end Dany.Flood
