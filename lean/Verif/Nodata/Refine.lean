import Verif.Nodata.Model
import Verif.Flood.Lemmas

/-!
# Without nodata cells both models agree: `heapq` meets the contract used in `Flood`
-/

namespace Dany.Nodata

open Function

variable {N : ℕ} {V : Type*} [LinearOrder V]

/-- `<` on tuples of numbers -/
def tupLt (a b : V × Fin N) : Bool := decide (a.1 < b.1 ∨ (a.1 = b.1 ∧ a.2 < b.2))

def emb (a : V × Fin N) : Option V × Fin N := (some a.1, a.2)

theorem tupleLt_emb (a b : V × Fin N) : tupleLt (emb a) (emb b) = tupLt a b := rfl

theorem tupLt_iff (a b : V × Fin N) : tupLt a b = false ↔ Flood.tupleLe b a = true := by
  simp only [tupLt, Flood.tupleLe, decide_eq_false_iff_not, decide_eq_true_eq, not_or, not_lt, not_and]
  constructor
  · rintro ⟨h1, h2⟩
    rcases h1.lt_or_eq with h | h
    · exact .inl h
    · exact .inr ⟨h, h2 h.symm⟩
  · rintro (h | ⟨h1, h2⟩)
    · exact ⟨h.le, fun h' => absurd h' (ne_of_gt h)⟩
    · exact ⟨h1.le, fun _ => h2⟩

theorem total_tupLt : Heapq.Total (tupLt (N := N) (V := V)) where
  asymm a b h := by
    simp only [tupLt, decide_eq_true_eq, decide_eq_false_iff_not, not_or, not_lt, not_and] at *
    rcases h with h | ⟨h1, h2⟩
    · exact ⟨h.le, fun h' => absurd h' (ne_of_gt h)⟩
    · exact ⟨h1.le, fun _ => h2.le⟩
  trans a b c h1 h2 := by
    rw [tupLt_iff] at *
    simp only [Flood.tupleLe, decide_eq_true_eq] at *
    rcases h1 with h1 | ⟨h1, h1'⟩ <;> rcases h2 with h2 | ⟨h2, h2'⟩
    · exact .inl (h1.trans h2)
    · exact .inl (h2 ▸ h1)
    · exact .inl (h1 ▸ h2)
    · exact .inr ⟨h1.trans h2, h1'.trans h2'⟩
  anti a b h1 h2 := by
    rw [tupLt_iff] at *
    simp only [Flood.tupleLe, decide_eq_true_eq] at *
    rcases h1 with h1 | ⟨h1, h1'⟩ <;> rcases h2 with h2 | ⟨h2, h2'⟩
    · exact absurd h1 (not_lt.2 h2.le)
    · exact absurd h1 (h2 ▸ lt_irrefl _)
    · exact absurd h2 (h1 ▸ lt_irrefl _)
    · exact Prod.ext h2 (le_antisymm h2' h1')

theorem popMin_least {l r : List (V × Fin N)} {m : V × Fin N} (h : Flood.popMin l = some (m, r)) :
    ∀ y ∈ l, tupLt y m = false := by
  induction l generalizing m r with
  | nil => simp
  | cons x xs ih =>
    simp only [Flood.popMin] at h
    split at h
    · rename_i hx
      have := Flood.popMin_none hx
      subst this
      cases h
      intro y hy
      simp only [List.mem_singleton] at hy
      subst hy; exact total_tupLt.refl _
    · rename_i m' rest hx
      have hm := ih hx
      split at h
      · rename_i hle
        cases h
        intro y hy
        rcases List.mem_cons.1 hy with rfl | hy
        · exact total_tupLt.refl _
        · exact total_tupLt.trans _ _ _ ((tupLt_iff _ _).2 hle) (hm y hy)
      · rename_i hle
        cases h
        intro y hy
        rcases List.mem_cons.1 hy with rfl | hy
        · cases hc : tupLt y m with
          | false => rfl
          | true => exact absurd ((tupLt_iff _ _).1 (total_tupLt.asymm _ _ hc)) hle
        · exact hm y hy

/-- **The contract of `heappop`** that `Flood` uses: on a heap both give the same tuple and the same bag of remaining ones. -/
theorem heappop_popMin {h l : List (V × Fin N)} (hh : Heapq.IsHeap tupLt h) (hp : h.Perm l) :
    (Heapq.heappop tupLt h = none ∧ Flood.popMin l = none) ∨
    ∃ m r r', Heapq.heappop tupLt h = some (m, r) ∧ Flood.popMin l = some (m, r') ∧ Heapq.IsHeap tupLt r ∧ r.Perm r' := by
  cases h1 : Heapq.heappop tupLt h with
  | none =>
    left
    have := Heapq.heappop_none h1
    subst this
    rw [List.nil_perm.1 hp]
    exact ⟨rfl, rfl⟩
  | some x =>
    obtain ⟨m, r⟩ := x
    have p1 := Heapq.heappop_perm h1
    obtain ⟨q1, q2⟩ := Heapq.heappop_heap total_tupLt hh h1
    cases h2 : Flood.popMin l with
    | none =>
      have := Flood.popMin_none h2
      subst this
      exact absurd (p1.symm.trans hp) (by simp)
    | some y =>
      obtain ⟨m', r'⟩ := y
      obtain ⟨p2, _⟩ := Flood.popMin_some h2
      have q3 := popMin_least h2
      have hm : m = m' := total_tupLt.anti _ _ (q3 m (hp.mem_iff.1 (p1.mem_iff.2 (by simp))))
        (q2 m' (hp.mem_iff.2 (p2.mem_iff.2 (by simp))))
      subst hm
      exact .inr ⟨m, r, r', rfl, rfl, q1, (List.perm_cons m).1 (p1.symm.trans (hp.trans p2))⟩

/-- states of the two models that correspond -/
structure Sim (s : Flood.PF N V) (t : PF N V) : Prop where
  dem : t.dem = fun n => some (s.dem n)
  closed : t.closed = s.closed
  pit : t.pit = s.pit
  done : t.done = s.done
  heap : ∃ h : List (V × Fin N), t.heap = h.map emb ∧ Heapq.IsHeap tupLt h ∧ h.Perm s.heap

theorem sim_init (dem : Fin N → V) (seed : List (Fin N)) :
    Sim (Flood.pfInit dem seed) (pfInit (fun n => some (dem n)) seed) where
  dem := rfl
  closed := rfl
  pit := rfl
  done := rfl
  heap := by
    have key : ∀ (seed : List (Fin N)) (h : List (V × Fin N)), Heapq.IsHeap tupLt h →
        ∃ h', seed.foldl (fun h n => Heapq.heappush tupleLt h (some (dem n), n)) (h.map emb) = h'.map emb ∧
          Heapq.IsHeap tupLt h' ∧ h'.Perm (seed.map (fun n => (dem n, n)) ++ h) := by
      intro seed
      induction seed with
      | nil => intro h hh; exact ⟨h, rfl, hh, .refl _⟩
      | cons n seed ih =>
        intro h hh
        obtain ⟨h', a, b, c⟩ := ih (Heapq.heappush tupLt h (dem n, n)) (Heapq.heappush_heap total_tupLt hh _)
        refine ⟨h', ?_, b, c.trans ?_⟩
        · rw [← a, ← Heapq.heappush_map tupleLt_emb]; rfl
        · refine (List.Perm.append_left _ (Heapq.heappush_perm _ _ _)).trans ?_
          exact List.perm_middle
    obtain ⟨h', a, b, c⟩ := key seed [] (Heapq.isHeap_nil _)
    exact ⟨h', a, b, by simpa [Flood.pfInit] using c⟩

theorem sim_visit {s : Flood.PF N V} {t : PF N V} (h : Sim s t) (raise : V → V) (streams : Bool) (seed : List (Fin N))
    (c : Fin N) (n : ℕ) : Sim (Flood.visit raise streams seed c s n) (visit raise streams seed c t n) := by
  obtain ⟨hd, hc, hp, hdn, hh⟩ := h
  obtain ⟨td, tc, th, tp, tdn⟩ := t
  subst hd hc hp hdn
  unfold visit Flood.visit
  by_cases hn : n < N
  · simp only [hn, dif_pos]
    by_cases hcl : s.closed ⟨n, hn⟩ = true
    · rw [if_pos hcl, if_pos hcl]; exact ⟨rfl, rfl, rfl, rfl, hh⟩
    · rw [if_neg hcl, if_neg hcl]
      simp only [leO, decide_eq_true_eq]
      have hraise : Sim (Flood.raiseInto raise c ⟨n, hn⟩ { s with closed := update s.closed ⟨n, hn⟩ true })
          (raiseInto raise c ⟨n, hn⟩ ⟨fun n => some (s.dem n), update s.closed ⟨n, hn⟩ true, th, s.pit, s.done⟩) := by
        refine ⟨?_, rfl, rfl, rfl, hh⟩
        funext x
        simp only [raiseInto, Flood.raiseInto, Option.map_some]
        by_cases hx : x = ⟨n, hn⟩
        · subst hx; simp
        · simp [hx]
      by_cases hle : s.dem ⟨n, hn⟩ ≤ s.dem c
      · rw [if_pos hle, if_pos hle]
        by_cases hs : streams = true
        · rw [if_pos hs, if_pos hs]
          by_cases h1 : c ∉ seed ∧ (⟨n, hn⟩ : Fin N) ∉ seed
          · rw [if_pos h1, if_pos h1]; exact hraise
          · rw [if_neg h1, if_neg h1]
            by_cases h2 : c ∈ seed
            · rw [if_pos h2, if_pos h2]; exact hraise
            · rw [if_neg h2, if_neg h2]; exact ⟨rfl, rfl, rfl, rfl, hh⟩
        · rw [if_neg hs, if_neg hs]; exact hraise
      · rw [if_neg hle, if_neg hle]
        refine ⟨rfl, rfl, rfl, rfl, ?_⟩
        obtain ⟨h, h1, h2, h3⟩ := hh
        refine ⟨Heapq.heappush tupLt h (s.dem ⟨n, hn⟩, ⟨n, hn⟩), ?_, Heapq.heappush_heap total_tupLt h2 _,
          (Heapq.heappush_perm _ _ _).trans (List.Perm.cons _ h3)⟩
        rw [← Heapq.heappush_map tupleLt_emb]
        have h1 : th = h.map emb := h1
        rw [← h1]; rfl
  · simp only [hn, dif_neg, not_false_iff]
    exact ⟨rfl, rfl, rfl, rfl, hh⟩

theorem foldl_minO (es : List V) (e : V) : (es.map some).foldl minO (some e) = some (es.foldl min e) := by
  induction es generalizing e with
  | nil => rfl
  | cons a es ih => simp only [List.map_cons, List.foldl_cons, minO, ih]

theorem burn_some (raise : V → V) (streams : Bool) (nbr : Fin N → List ℕ) (seed : List (Fin N)) (c : Fin N)
    (dem : Fin N → V) : burn raise streams nbr seed c (fun n => some (dem n)) =
      fun n => some (Flood.burn raise streams nbr seed c dem n) := by
  unfold burn Flood.burn
  have he : streamElevs nbr seed c (fun n => some (dem n)) = (Flood.streamElevs nbr seed c dem).map some := by
    simp [streamElevs, Flood.streamElevs, List.map_map, Function.comp_def]
  rw [he]
  split
  · rcases Flood.streamElevs nbr seed c dem with _ | ⟨a, _ | ⟨b, es⟩⟩
    · rfl
    · rfl
    · have hf := foldl_minO (b :: es) a
      simp only [List.map_cons] at hf ⊢
      rw [hf]
      simp only [ltO, decide_eq_true_eq, Option.map_some, gt_iff_lt]
      split
      · funext x
        by_cases hx : x = c
        · subst hx; simp
        · simp [hx]
      · rfl
  · rfl

theorem sim_process {s : Flood.PF N V} {t : PF N V} (h : Sim s t) (raise : V → V) (streams : Bool) (nbr : Fin N → List ℕ)
    (seed : List (Fin N)) (c : Fin N) :
    Sim (Flood.process raise streams nbr seed c s) (process raise streams nbr seed c t) := by
  unfold process Flood.process
  have key : ∀ (l : List ℕ) (s : Flood.PF N V) (t : PF N V), Sim s t →
      Sim (l.foldl (Flood.visit raise streams seed c) s) (l.foldl (visit raise streams seed c) t) := by
    intro l
    induction l with
    | nil => intro s t h; exact h
    | cons n l ih => intro s t h; exact ih _ _ (sim_visit h raise streams seed c n)
  refine key _ _ _ ⟨?_, h.closed, h.pit, ?_, h.heap⟩
  · show burn raise streams nbr seed c t.dem = _
    rw [h.dem, burn_some]
  · show t.done ++ [c] = s.done ++ [c]
    rw [h.done]

theorem sim_pop {s : Flood.PF N V} {t : PF N V} (h : Sim s t) :
    (Flood.popNext s = none ∧ popNext t = none) ∨
    ∃ c s' t', Flood.popNext s = some (c, s') ∧ popNext t = some (c, t') ∧ Sim s' t' := by
  obtain ⟨hd, hc, hp, hdn, hh⟩ := h
  obtain ⟨td, tc, th, tp, tdn⟩ := t
  subst hd hc hp hdn
  unfold popNext Flood.popNext
  dsimp only at hh ⊢
  cases hpit : s.pit with
  | cons c rest => exact .inr ⟨c, _, _, rfl, rfl, rfl, rfl, rfl, rfl, hh⟩
  | nil =>
    obtain ⟨h, rfl, h2, h3⟩ := hh
    dsimp only
    rw [Heapq.heappop_map tupleLt_emb]
    rcases heappop_popMin h2 h3 with ⟨a, b⟩ | ⟨m, r, r', a, b, hr, hrp⟩
    · left; rw [a, b]; exact ⟨rfl, rfl⟩
    · right
      rw [a, b]
      exact ⟨m.2, _, _, rfl, rfl, rfl, rfl, hpit.symm ▸ rfl, rfl, r, rfl, hr, hrp⟩

theorem sim_loop {s : Flood.PF N V} {t : PF N V} (h : Sim s t) (raise : V → V) (streams : Bool) (nbr : Fin N → List ℕ)
    (seed : List (Fin N)) (fuel : ℕ) :
    (pfLoop raise streams nbr seed fuel t).map PF.dem =
      (Flood.pfLoop raise streams nbr seed fuel s).map fun s n => some (s.dem n) := by
  induction fuel generalizing s t with
  | zero => rfl
  | succ k ih =>
    simp only [pfLoop, Flood.pfLoop]
    rcases sim_pop h with ⟨a, b⟩ | ⟨c, s', t', a, b, h'⟩
    · rw [a, b]
      simp only [Res.map_ok, h.dem]
    · rw [a, b]
      exact ih (sim_process h' raise streams nbr seed c)

theorem priorityFlood_some (fuel : ℕ) (raise : V → V) (streams : Bool) (nbr : Fin N → List ℕ) (dem : Fin N → V)
    (seed : List (Fin N)) : priorityFlood fuel raise streams nbr (fun n => some (dem n)) seed =
      (Flood.priorityFlood fuel raise streams nbr dem seed).map fun f n => some (f n) := by
  unfold priorityFlood Flood.priorityFlood
  rw [sim_loop (sim_init dem seed)]
  cases Flood.pfLoop raise streams nbr seed fuel (Flood.pfInit dem seed) <;> rfl

theorem foldl_maxO (es : List V) (e : V) : (es.map some).foldl maxO (some e) = some (es.foldl max e) := by
  induction es generalizing e with
  | nil => rfl
  | cons a es ih => simp only [List.map_cons, List.foldl_cons, maxO, ih]

theorem drainCell_some (raise : V → V) (nbr : Fin N → List ℕ) (dem : Fin N → V) (c : Fin N) (b : Bool) (wf : Fin N → V) :
    drainCell raise nbr (fun n => some (dem n)) c (b, fun n => some (wf n)) =
      (Flood.drainCell raise nbr dem c (b, wf)).map fun r => (r.1, fun n => some (r.2 n)) := by
  have upd : ∀ v : V, update (fun n => some (wf n)) c (some v) = fun n => some (update wf c v n) := by
    intro v; funext x
    by_cases hx : x = c
    · subst hx; simp
    · simp [hx]
  unfold drainCell Flood.drainCell
  dsimp only
  simp only [ltO, decide_eq_true_eq, gt_iff_lt]
  split_ifs with h1
  · cases Flood.indexAll N (nbr c) with
    | err e => rfl
    | hang => rfl
    | ok nc =>
      simp only [Res.bind_ok, Option.map_some, ge_iff_le]
      by_cases h2 : 0 < (nc.filter fun n => decide (raise (wf n) ≤ dem c)).length
      · refine (if_pos h2).trans ?_
        rw [if_pos h2]
        simp only [Res.map_ok, upd]
      · refine (if_neg h2).trans ?_
        rw [if_neg h2]
        have e1 : (nc.filter fun n => decide (raise (wf n) < wf c)).map (fun n => some (wf n)) =
            ((nc.filter fun n => decide (raise (wf n) < wf c)).map wf).map some := by
          simp [List.map_map, Function.comp_def]
        rw [e1]
        cases (nc.filter fun n => decide (raise (wf n) < wf c)).map wf with
        | nil => rfl
        | cons w ws => simp only [List.map_cons, foldl_maxO, Option.map_some, Res.map_ok, upd]
  · rfl

theorem drainLoop_some (raise : V → V) (nbr : Fin N → List ℕ) (dem : Fin N → V) (fuel : ℕ) (wf : Fin N → V) :
    drainLoop raise nbr (fun n => some (dem n)) fuel (fun n => some (wf n)) =
      (Flood.drainLoop raise nbr dem fuel wf).map fun f n => some (f n) := by
  have sweep : ∀ (l : List (Fin N)) (b : Bool) (wf : Fin N → V),
      Flood.foldRes (drainCell raise nbr fun n => some (dem n)) l (b, fun n => some (wf n)) =
        (Flood.foldRes (Flood.drainCell raise nbr dem) l (b, wf)).map fun r => (r.1, fun n => some (r.2 n)) := by
    intro l
    induction l with
    | nil => intro b wf; rfl
    | cons a l ih =>
      intro b wf
      simp only [Flood.foldRes, drainCell_some]
      cases Flood.drainCell raise nbr dem a (b, wf) with
      | err e => rfl
      | hang => rfl
      | ok r => exact ih r.1 r.2
  induction fuel generalizing wf with
  | zero => rfl
  | succ k ih =>
    simp only [drainLoop, Flood.drainLoop, drainSweep, Flood.drainSweep, sweep]
    cases Flood.foldRes (Flood.drainCell raise nbr dem) (List.finRange N) (false, wf) with
    | err e => rfl
    | hang => rfl
    | ok r =>
      simp only [Res.map_ok, Res.bind_ok]
      split
      · exact ih r.2
      · rfl

theorem floodAndDrain_some (fuel : ℕ) (raise : V → V) (flood : V) (nbr : Fin N → List ℕ) (dem : Fin N → V)
    (seed : List (Fin N)) : floodAndDrain fuel raise flood nbr (fun n => some (dem n)) seed =
      (Flood.floodAndDrain fuel raise flood nbr dem seed).map fun f n => some (f n) := by
  unfold floodAndDrain Flood.floodAndDrain
  rw [← drainLoop_some]
  congr 1
  funext n
  unfold drainInit Flood.drainInit
  split <;> rfl

/-- **C138.**  `fill_sinks` run with CPython's heap, push by push and pop by pop, gives exactly the result (or exception, or
endless loop) of the model used in C01–C17 and later, in which the queue is a bag whose least tuple is taken out.  So these
properties hold of the code with its own queue, as long as the DEM holds no NaN. -/
theorem C138_heap (fuel : ℕ) (raise : V → V) (flood : V) (g : Flood.Grid N) (dem : Fin N → V)
    (mask : Option (Fin N → Bool)) (method : String) :
    fillSinks fuel raise flood g (fun n => some (dem n)) mask method =
      (Flood.fillSinks fuel raise flood g dem mask method).map fun f n => some (f n) := by
  unfold fillSinks Flood.fillSinks
  cases Edge.edgeNodes g.iverts with
  | err e => rfl
  | hang => rfl
  | ok edge =>
    simp only [Res.bind_ok]
    unfold fillFrom Flood.fillFrom
    dsimp only
    split_ifs <;> cases mask <;> simp only [priorityFlood_some, floodAndDrain_some]

end Dany.Nodata
