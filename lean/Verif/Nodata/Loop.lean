import Verif.Nodata.Spec
import Verif.Nodata.Model
import Mathlib.Data.Fintype.Card
import Mathlib.Data.Finset.Card

/-!
# Priority flood with nodata cells: invariants

The heap is no heap any more once it holds NaN; all that is used here is that its operations permute the list.
-/

namespace Dany.Nodata

open Function
open Flood (Adj SymmNbr Reach)

variable {N : ℕ} {V : Type*} [LinearOrder V]

/-- nodata stays nodata, a number does not fall -/
def GeO (a b : Option V) : Prop := (a = none ↔ b = none) ∧ ∀ x y, a = some x → b = some y → x ≤ y

theorem GeO.refl (a : Option V) : GeO a a := ⟨Iff.rfl, fun x y h h' => by rw [h] at h'; cases h'; exact le_refl _⟩

theorem GeO.trans {a b c : Option V} (h : GeO a b) (h' : GeO b c) : GeO a c := by
  refine ⟨h.1.trans h'.1, fun x z hx hz => ?_⟩
  cases b with
  | none => rw [h.1.2 rfl] at hx; cases hx
  | some y => exact (h.2 x y hx rfl).trans (h'.2 y z rfl hz)

/-- Drainage paths that run through finished cells only, ending at a seed or beside a nodata cell. -/
inductive DP (rel : V → V → Prop) (nbr : Fin N → List ℕ) (dem0 : Fin N → Option V) (seed done : List (Fin N))
    (f : Fin N → Option V) : Fin N → Prop
  | outlet {n} : n ∈ seed → DP rel nbr dem0 seed done f n
  | nodata {n c} : Adj nbr c n → dem0 c = none → DP rel nbr dem0 seed done f n
  | step {n c x y} : c ∈ done → Adj nbr c n → f c = some x → f n = some y → rel x y → DP rel nbr dem0 seed done f c →
      DP rel nbr dem0 seed done f n

theorem DP.stable {rel : V → V → Prop} {nbr : Fin N → List ℕ} {dem0 : Fin N → Option V} {seed done done' : List (Fin N)}
    {f f' : Fin N → Option V} (hd : ∀ x ∈ done, x ∈ done') (hf : ∀ x ∈ done, f' x = f x) {n : Fin N}
    (hn : n ∈ seed ∨ f' n = f n) (h : DP rel nbr dem0 seed done f n) : DP rel nbr dem0 seed done' f' n := by
  induction h with
  | outlet h => exact .outlet h
  | nodata h h' => exact .nodata h h'
  | step hc ha hx hy hr _ ih =>
    rcases hn with hn | hn
    · exact .outlet hn
    · exact .step (hd _ hc) ha (by rw [hf _ hc]; exact hx) (by rw [hn]; exact hy) hr (ih (.inr (hf _ hc)))

theorem DP.drains {rel : V → V → Prop} {nbr : Fin N → List ℕ} (hsym : SymmNbr nbr) {dem0 : Fin N → Option V}
    {seed done : List (Fin N)} {f : Fin N → Option V} {n : Fin N} (h : DP rel nbr dem0 seed done f n) :
    Drains rel nbr f (fun n => n ∈ seed ∨ BesideNodata nbr dem0 n) n := by
  induction h with
  | outlet h => exact .outlet (.inl h)
  | nodata h h' => exact .outlet (.inr ⟨_, h, h'⟩)
  | step _ ha hx hy hr _ ih => exact .step (hsym _ _ ha) hx hy hr ih

/-- cells waiting in a queue -/
def PF.queue (s : PF N V) : List (Fin N) := s.heap.map Prod.snd ++ s.pit

/-- Invariant of the flood; `cur` is the cell being processed, if any. -/
structure Inv (rel : V → V → Prop) (nbr : Fin N → List ℕ) (dem0 : Fin N → Option V) (seed : List (Fin N))
    (cur : Option (Fin N)) (s : PF N V) : Prop where
  cl : ∀ n, s.closed n = true ↔ n ∈ s.done ∨ n ∈ s.queue
  nodup : (s.done ++ s.queue).Nodup
  seeds : ∀ n ∈ seed, s.closed n = true
  ge : ∀ n, GeO (dem0 n) (s.dem n)
  unclosed : ∀ n, s.closed n = false → s.dem n = dem0 n
  doneCl : ∀ c ∈ s.done, cur ≠ some c → ∀ n, Adj nbr c n → s.closed n = true
  reach : ∀ n, s.closed n = true → Reach nbr (· ∈ seed) n
  drn : ∀ n, s.closed n = true → s.dem n ≠ none → DP rel nbr dem0 seed s.done s.dem n
  curDone : ∀ c, cur = some c → c ∈ s.done

theorem initHeap_perm (dem : Fin N → Option V) (seed : List (Fin N)) (h : List (Option V × Fin N)) :
    (seed.foldl (fun h n => Heapq.heappush tupleLt h (dem n, n)) h).Perm (seed.map (fun n => (dem n, n)) ++ h) := by
  induction seed generalizing h with
  | nil => exact .refl _
  | cons n seed ih =>
    exact (ih _).trans ((List.Perm.append_left _ (Heapq.heappush_perm _ _ _)).trans List.perm_middle)

theorem initQueue_perm (dem : Fin N → Option V) (seed : List (Fin N)) : (pfInit dem seed).queue.Perm seed := by
  have := (initHeap_perm dem seed []).map Prod.snd
  simpa [PF.queue, pfInit, List.map_map, Function.comp_def] using this

theorem inv_init (rel : V → V → Prop) (nbr : Fin N → List ℕ) (dem : Fin N → Option V) (seed : List (Fin N))
    (hs : seed.Nodup) : Inv rel nbr dem seed none (pfInit dem seed) where
  cl n := by
    rw [(initQueue_perm dem seed).mem_iff]
    simp [pfInit]
  nodup := by
    show ([] ++ (pfInit dem seed).queue).Nodup
    rw [List.nil_append]
    exact (initQueue_perm dem seed).nodup_iff.2 hs
  seeds n h := by simp [pfInit, h]
  ge n := GeO.refl _
  unclosed n _ := rfl
  doneCl c h := by simp [pfInit] at h
  reach n h := by
    simp only [pfInit, decide_eq_true_eq] at h
    exact .seed h
  drn n h _ := by
    simp only [pfInit, decide_eq_true_eq] at h
    exact .outlet h
  curDone c h := by cases h

/-- What one neighbour visit does. -/
theorem visit_cases (raise : V → V) (streams : Bool) (seed : List (Fin N)) (c : Fin N)
    (s : PF N V) (hseed : ∀ n ∈ seed, s.closed n = true) (m : ℕ) :
    (visit raise streams seed c s m = s ∧ (∀ h : m < N, s.closed ⟨m, h⟩ = true)) ∨
    ∃ h : m < N, s.closed ⟨m, h⟩ = false ∧ (⟨m, h⟩ : Fin N) ∉ seed ∧
      ((∃ x y, s.dem ⟨m, h⟩ = some x ∧ s.dem c = some y ∧ x ≤ y ∧ visit raise streams seed c s m =
          { s with closed := update s.closed ⟨m, h⟩ true, dem := update s.dem ⟨m, h⟩ (some (raise y)),
                   pit := s.pit ++ [⟨m, h⟩] }) ∨
       ((∀ x y, s.dem ⟨m, h⟩ = some x → s.dem c = some y → y < x) ∧ visit raise streams seed c s m =
          { s with closed := update s.closed ⟨m, h⟩ true,
                   heap := Heapq.heappush tupleLt s.heap (s.dem ⟨m, h⟩, ⟨m, h⟩) })) := by
  unfold visit
  by_cases h : m < N
  · simp only [h, dif_pos]
    cases hc : s.closed ⟨m, h⟩ with
    | true => left; exact ⟨by simp, fun _ => hc⟩
    | false =>
      have hns : (⟨m, h⟩ : Fin N) ∉ seed := fun hm => by
        have := hseed _ hm; rw [hc] at this; cases this
      right
      refine ⟨trivial, hc, hns, ?_⟩
      by_cases hle : leO (s.dem ⟨m, h⟩) (s.dem c) = true
      · left
        cases hx : s.dem ⟨m, h⟩ with
        | none => rw [hx] at hle; simp [leO] at hle
        | some x =>
          cases hy : s.dem c with
          | none => rw [hx, hy] at hle; simp [leO] at hle
          | some y =>
            rw [hx, hy] at hle
            refine ⟨x, y, rfl, rfl, by simpa [leO] using hle, ?_⟩
            simp only [hle, if_true, Bool.false_eq_true, if_false]
            have hr : raiseInto raise c ⟨m, h⟩ { s with closed := update s.closed ⟨m, h⟩ true } =
                { s with closed := update s.closed ⟨m, h⟩ true, dem := update s.dem ⟨m, h⟩ (some (raise y)),
                         pit := s.pit ++ [⟨m, h⟩] } := by
              simp [raiseInto, hy]
            cases streams <;> simp only [Bool.false_eq_true, if_false, if_true]
            · exact hr
            by_cases hcs : c ∈ seed
            · simp only [hcs, not_true, false_and, if_false, if_true]; exact hr
            · simp only [hcs, hns, not_false_iff, and_self, if_true]; exact hr
      · right
        refine ⟨?_, ?_⟩
        · intro x y hx hy
          rw [hx, hy] at hle
          simpa [leO] using hle
        · simp [hle]
  · left
    simp [h]

theorem inv_visit {rel : V → V → Prop} {raise : V → V} (streams : Bool) {nbr : Fin N → List ℕ}
    {dem0 : Fin N → Option V} {seed : List (Fin N)} {c : Fin N} {s : PF N V}
    (hinf : ∀ x, x ≤ raise x) (hrel1 : ∀ x, rel x (raise x)) (hrel2 : ∀ x y, x < y → rel x y)
    (hi : Inv rel nbr dem0 seed (some c) s) (m : ℕ) (hm : m ∈ nbr c) :
    Inv rel nbr dem0 seed (some c) (visit raise streams seed c s m) := by
  rcases visit_cases raise streams seed c s hi.seeds m with ⟨h, _⟩ | ⟨hN, hcl, hns, hh⟩
  · rw [h]; exact hi
  have hcd : c ∈ s.done := hi.curDone c rfl
  have hcc : s.closed c = true := (hi.cl c).2 (.inl hcd)
  generalize hn : (⟨m, hN⟩ : Fin N) = n at *
  have hadj : Adj nbr c n := by subst hn; exact hm
  have hnd : n ∉ s.done := fun h => by rw [(hi.cl n).2 (.inl h)] at hcl; cases hcl
  have hnq : n ∉ s.queue := fun h => by rw [(hi.cl n).2 (.inr h)] at hcl; cases hcl
  have hne : ∀ x, s.closed x = true → x ≠ n := fun x hx h => by subst h; rw [hcl] at hx; cases hx
  have hd0 : s.dem n = dem0 n := hi.unclosed n hcl
  have hclD : ∀ x ∈ s.done, s.closed x = true := fun x hx => (hi.cl x).2 (.inl hx)
  -- facts common to both branches
  have common : ∀ t : PF N V, t.closed = update s.closed n true → t.done = s.done → t.queue.Perm (n :: s.queue) →
      (∀ x, x ≠ n → t.dem x = s.dem x) → GeO (dem0 n) (t.dem n) →
      (t.dem n ≠ none → DP rel nbr dem0 seed s.done t.dem n) → Inv rel nbr dem0 seed (some c) t := by
    intro t tc td tq tdem tge tdp
    have hcl' : ∀ x, t.closed x = true ↔ x = n ∨ s.closed x = true := by
      intro x
      rw [tc]
      by_cases hx : x = n
      · subst hx; simp
      · simp [hx]
    refine ⟨?_, ?_, ?_, ?_, ?_, ?_, ?_, ?_, ?_⟩
    · intro x
      rw [hcl', td, tq.mem_iff, hi.cl x, List.mem_cons]
      tauto
    · rw [td]
      refine ((tq.append_left s.done).nodup_iff).2 ?_
      refine (List.perm_middle.nodup_iff).2 ?_
      rw [List.nodup_cons]
      refine ⟨fun h => ?_, hi.nodup⟩
      rcases List.mem_append.1 h with h | h
      · exact hnd h
      · exact hnq h
    · intro x hx; exact (hcl' x).2 (.inr (hi.seeds x hx))
    · intro x
      by_cases hx : x = n
      · subst hx; exact tge
      · rw [tdem x hx]; exact hi.ge x
    · intro x hx
      have hx' : ¬ (x = n ∨ s.closed x = true) := by rw [← hcl']; simp [hx]
      rw [not_or] at hx'
      rw [tdem x hx'.1]
      exact hi.unclosed x (by simpa using hx'.2)
    · intro d hd hdc x hx
      exact (hcl' x).2 (.inr (hi.doneCl d (td ▸ hd) hdc x hx))
    · intro x hx
      rcases (hcl' x).1 hx with rfl | hx
      · exact .step (hi.reach c hcc) hadj
      · exact hi.reach x hx
    · intro x hx hv
      rw [td]
      rcases (hcl' x).1 hx with rfl | hx
      · exact tdp hv
      · have hxn := hne x hx
        rw [tdem x hxn] at hv
        exact (hi.drn x hx hv).stable (fun _ h => h) (fun z hz => tdem z (hne z (hclD z hz))) (.inr (tdem x hxn))
    · intro d hd; rw [td]; exact hi.curDone d hd
  rcases hh with ⟨x, y, hx, hy, hle, h⟩ | ⟨hlt, h⟩
  · rw [h]
    have hcn : c ≠ n := hne c hcc
    refine common _ rfl rfl ?_ (fun z hz => update_of_ne hz _ _) ?_ ?_
    · show (s.heap.map Prod.snd ++ (s.pit ++ [n])).Perm (n :: (s.heap.map Prod.snd ++ s.pit))
      rw [← List.append_assoc]
      exact List.perm_append_singleton _ _
    · show GeO _ (update s.dem n _ n)
      rw [update_self]
      refine ⟨by rw [← hd0, hx]; simp, fun a b ha hb => ?_⟩
      rw [← hd0, hx] at ha
      cases ha; cases hb
      exact hle.trans (hinf _)
    · intro _
      have hfc : update s.dem n (some (raise y)) c = some y := by rw [update_of_ne hcn]; exact hy
      refine .step hcd hadj hfc (update_self _ _ _) (hrel1 _) ?_
      exact (hi.drn c hcc (by rw [hy]; simp)).stable (fun _ h => h)
        (fun z hz => update_of_ne (hne z (hclD z hz)) _ _) (.inr (update_of_ne hcn _ _))
  · rw [h]
    refine common _ rfl rfl ?_ (fun z hz => rfl) (hi.ge n) ?_
    · show ((Heapq.heappush tupleLt s.heap (s.dem n, n)).map Prod.snd ++ s.pit).Perm (n :: (s.heap.map Prod.snd ++ s.pit))
      rw [← List.cons_append]
      exact List.Perm.append_right _ ((Heapq.heappush_perm _ _ _).map Prod.snd)
    · intro hv
      show DP rel nbr dem0 seed s.done s.dem n
      obtain ⟨x, hx⟩ := Option.ne_none_iff_exists'.1 hv
      have hx : s.dem n = some x := hx
      cases hy : s.dem c with
      | none => exact .nodata hadj ((hi.ge c).1.2 hy)
      | some y => exact .step hcd hadj hy hx (hrel2 _ _ (hlt x y hx hy)) (hi.drn c hcc (by rw [hy]; simp))

/-- A visit leaves closed cells closed and closes its argument. -/
theorem visit_closed (raise : V → V) (streams : Bool) (seed : List (Fin N)) (c : Fin N)
    (s : PF N V) (hseed : ∀ n ∈ seed, s.closed n = true) (m : ℕ) :
    (∀ x, s.closed x = true → (visit raise streams seed c s m).closed x = true) ∧
    (∀ h : m < N, (visit raise streams seed c s m).closed ⟨m, h⟩ = true) ∧
    (visit raise streams seed c s m).done = s.done ∧
    (∀ x, s.closed x = true → (visit raise streams seed c s m).dem x = s.dem x) := by
  rcases visit_cases raise streams seed c s hseed m with ⟨h, h2⟩ | ⟨hN, hcl, hns, ⟨_, _, _, _, _, h⟩ | ⟨_, h⟩⟩
  · rw [h]; exact ⟨fun _ h => h, h2, rfl, fun _ _ => rfl⟩
  all_goals
    rw [h]
    refine ⟨fun x hx => ?_, fun h' => by show update s.closed _ true _ = true; simp, rfl, fun x hx => ?_⟩
    · show update s.closed _ true x = true
      by_cases hxn : x = ⟨m, hN⟩
      · subst hxn; simp
      · rw [update_of_ne hxn]; exact hx
    · have : x ≠ ⟨m, hN⟩ := by rintro rfl; rw [hcl] at hx; cases hx
      first | rfl | exact update_of_ne this _ _

theorem inv_fold {rel : V → V → Prop} {raise : V → V} (streams : Bool) {nbr : Fin N → List ℕ}
    {dem0 : Fin N → Option V} {seed : List (Fin N)} {c : Fin N}
    (hinf : ∀ x, x ≤ raise x) (hrel1 : ∀ x, rel x (raise x)) (hrel2 : ∀ x y, x < y → rel x y)
    (l : List ℕ) (hl : ∀ m ∈ l, m ∈ nbr c) (s : PF N V)
    (hi : Inv rel nbr dem0 seed (some c) s) :
    let t := l.foldl (visit raise streams seed c) s
    Inv rel nbr dem0 seed (some c) t ∧ (∀ x, s.closed x = true → t.closed x = true ∧ t.dem x = s.dem x) ∧
      (∀ x : Fin N, x.val ∈ l → t.closed x = true) ∧ t.done = s.done := by
  induction l generalizing s with
  | nil => exact ⟨hi, fun _ h => ⟨h, rfl⟩, fun x h => by simp at h, rfl⟩
  | cons m l ih =>
    simp only [List.foldl_cons]
    have hi' := inv_visit streams hinf hrel1 hrel2 hi m (hl m (by simp))
    obtain ⟨h1, h2, h3, h4⟩ := ih (fun x hx => hl x (by simp [hx])) _ hi'
    obtain ⟨c1, c2, c3, c4⟩ := visit_closed raise streams seed c s hi.seeds m
    refine ⟨h1, fun x hx => ?_, ?_, h4.trans c3⟩
    · obtain ⟨a, b⟩ := h2 x (c1 x hx)
      exact ⟨a, b.trans (c4 x hx)⟩
    intro x hx
    rcases List.mem_cons.1 hx with hx | hx
    · subst hx
      exact (h2 x (c2 x.isLt)).1
    · exact h3 x hx

theorem burn_ne (raise : V → V) (streams : Bool) (nbr : Fin N → List ℕ) (seed : List (Fin N))
    (c : Fin N) (dem : Fin N → Option V) (x : Fin N) (h : x ≠ c ∨ c ∉ seed ∨ streams = false) :
    burn raise streams nbr seed c dem x = dem x := by
  unfold burn
  split
  · rename_i hh
    rcases h with h | h | h
    · rcases streamElevs nbr seed c dem with _ | ⟨a, _ | ⟨b, es⟩⟩
      · rfl
      · rfl
      · dsimp only
        split
        · exact update_of_ne h _ _
        · rfl
    · exact absurd hh.2 h
    · simp [h] at hh
  · rfl

theorem burn_ge (raise : V → V) (hinf : ∀ x, x ≤ raise x) (streams : Bool) (nbr : Fin N → List ℕ)
    (seed : List (Fin N)) (c : Fin N) (dem : Fin N → Option V) (x : Fin N) :
    GeO (dem x) (burn raise streams nbr seed c dem x) := by
  by_cases hx : x = c
  · subst hx
    unfold burn
    split
    · rcases streamElevs nbr seed x dem with _ | ⟨a, _ | ⟨b, es⟩⟩
      · exact GeO.refl _
      · exact GeO.refl _
      · dsimp only
        split
        · rename_i h
          rw [update_self]
          generalize List.foldl minO a (b :: es) = m at h
          cases hd : dem x with
          | none => rw [hd] at h; simp [ltO] at h
          | some v =>
            cases m with
            | none => rw [hd] at h; simp [ltO] at h
            | some w =>
              rw [hd] at h
              refine ⟨by simp, fun p q hp hq => ?_⟩
              cases hp; cases hq
              have : v < w := by simpa [ltO] using h
              exact this.le.trans (hinf _)
        · exact GeO.refl _
    · exact GeO.refl _
  · rw [burn_ne _ _ _ _ _ _ _ (.inl hx)]
    exact GeO.refl _

theorem popNext_none {s : PF N V} (h : popNext s = none) : s.heap = [] ∧ s.pit = [] := by
  unfold popNext at h
  split at h
  · cases h
  · rename_i hp
    split at h
    · rename_i hm; exact ⟨Heapq.heappop_none hm, hp⟩
    · cases h

theorem popNext_some {s s' : PF N V} {c : Fin N} (hp : popNext s = some (c, s')) :
    s'.dem = s.dem ∧ s'.closed = s.closed ∧ s'.done = s.done ∧ s.queue.Perm (c :: s'.queue) := by
  unfold popNext at hp
  split at hp
  · rename_i c' rest hpit
    cases hp
    refine ⟨rfl, rfl, rfl, ?_⟩
    simp only [PF.queue, hpit]
    exact List.perm_middle
  · rename_i hpit
    split at hp
    · cases hp
    · rename_i e c' rest hm
      cases hp
      refine ⟨rfl, rfl, rfl, ?_⟩
      simp only [PF.queue, hpit, List.append_nil]
      exact ((Heapq.heappop_perm hm).map Prod.snd)

theorem inv_pop {rel : V → V → Prop} {raise : V → V} (streams : Bool) {nbr : Fin N → List ℕ}
    {dem0 : Fin N → Option V} {seed : List (Fin N)} {s s' : PF N V} {c : Fin N}
    (hinf : ∀ x, x ≤ raise x)
    (hi : Inv rel nbr dem0 seed none s) (hp : popNext s = some (c, s')) :
    Inv rel nbr dem0 seed (some c)
      { s' with dem := burn raise streams nbr seed c s'.dem, done := s'.done ++ [c] } := by
  obtain ⟨hd, hc, hdn, hq⟩ := popNext_some hp
  have hnd : (s.done ++ (c :: s'.queue)).Nodup := ((hq.append_left s.done).nodup_iff).1 hi.nodup
  have hcq : c ∈ s.queue := hq.mem_iff.2 (by simp)
  have hcnd : c ∉ s.done := by
    intro h
    have := (List.nodup_append.1 hnd).2.2 c h c (by simp)
    exact this rfl
  have hcc : s.closed c = true := (hi.cl c).2 (.inr hcq)
  refine ⟨?_, ?_, ?_, ?_, ?_, ?_, ?_, ?_, ?_⟩
  · intro n
    show s'.closed n = true ↔ n ∈ s'.done ++ [c] ∨ n ∈ s'.queue
    rw [hc, hi.cl n, hdn, hq.mem_iff]
    simp [or_assoc]
  · show (s'.done ++ [c] ++ s'.queue).Nodup
    rw [hdn]; simpa using hnd
  · intro n h
    show s'.closed n = true
    rw [hc]; exact hi.seeds n h
  · intro n
    exact (hi.ge n).trans (hd ▸ burn_ge raise hinf streams nbr seed c s'.dem n)
  · intro n h'
    have h : s'.closed n = false := h'
    clear h'
    rw [hc] at h
    have hnc : n ≠ c := by rintro rfl; rw [hcc] at h; cases h
    show burn raise streams nbr seed c s'.dem n = _
    rw [burn_ne _ _ _ _ _ _ _ (.inl hnc), hd]
    exact hi.unclosed n h
  · intro d hd' hne n ha
    show s'.closed n = true
    rw [hc]
    rcases List.mem_append.1 hd' with h | h
    · exact hi.doneCl d (hdn ▸ h) (by simp) n ha
    · simp only [List.mem_singleton] at h
      subst h; exact absurd rfl hne
  · intro n h
    exact hi.reach n (hc ▸ h)
  · intro n h hv
    have hn : s.closed n = true := hc ▸ h
    have hv : burn raise streams nbr seed c s'.dem n ≠ none := hv
    have hv' : s.dem n ≠ none := by
      rw [← hd]
      exact fun h0 => hv ((burn_ge raise hinf streams nbr seed c s'.dem n).1.1 h0)
    show DP rel nbr dem0 seed (s'.done ++ [c]) (burn raise streams nbr seed c s'.dem) n
    rw [hdn, hd]
    refine (hi.drn n hn hv').stable (fun x hx => by simp [hx]) ?_ ?_
    · intro x hx
      exact burn_ne _ _ _ _ _ _ _ (.inl (by rintro rfl; exact hcnd hx))
    · by_cases hns : n ∈ seed
      · exact .inl hns
      · right
        by_cases hnc : n = c
        · exact burn_ne _ _ _ _ _ _ _ (.inr (.inl (hnc ▸ hns)))
        · exact burn_ne _ _ _ _ _ _ _ (.inl hnc)
  · intro d h
    cases h
    show _ ∈ s'.done ++ [_]
    simp

theorem inv_process {rel : V → V → Prop} {raise : V → V} (streams : Bool) {nbr : Fin N → List ℕ}
    {dem0 : Fin N → Option V} {seed : List (Fin N)} {s s' : PF N V} {c : Fin N}
    (hinf : ∀ x, x ≤ raise x) (hrel1 : ∀ x, rel x (raise x)) (hrel2 : ∀ x y, x < y → rel x y)
    (hi : Inv rel nbr dem0 seed none s) (hp : popNext s = some (c, s')) :
    Inv rel nbr dem0 seed none (process raise streams nbr seed c s') ∧
      (process raise streams nbr seed c s').done = s.done ++ [c] ∧
      ∀ x, s.closed x = true → (process raise streams nbr seed c s').dem x = burn raise streams nbr seed c s.dem x := by
  have h0 := inv_pop (raise := raise) streams hinf hi hp
  obtain ⟨hd, hc, hdn, _⟩ := popNext_some hp
  obtain ⟨h1, h2, h3, h4⟩ := inv_fold streams hinf hrel1 hrel2 (nbr c) (fun _ h => h) _ h0
  refine ⟨⟨h1.cl, h1.nodup, h1.seeds, h1.ge, h1.unclosed, ?_, h1.reach, h1.drn, ?_⟩, ?_, ?_⟩
  · intro d hd _ n ha
    by_cases hdc : d = c
    · subst hdc; exact h3 n ha
    · exact h1.doneCl d hd (by simpa using fun h => hdc h.symm) n ha
  · intro c h; cases h
  · rw [← hdn]; exact h4
  · intro x hx
    rw [← hd]
    exact (h2 x (by show s'.closed x = true; rw [hc]; exact hx)).2

/-- Anything preserved by an iteration holds at the end of the loop, where both queues are empty. -/
theorem pfLoop_inv {raise : V → V} {streams : Bool} {nbr : Fin N → List ℕ} {seed : List (Fin N)}
    (P : PF N V → Prop)
    (hP : ∀ s c s', P s → popNext s = some (c, s') → P (process raise streams nbr seed c s'))
    (fuel : ℕ) (s t : PF N V) (hs : P s) (h : pfLoop raise streams nbr seed fuel s = .ok t) :
    P t ∧ t.heap = [] ∧ t.pit = [] := by
  induction fuel generalizing s with
  | zero => cases h
  | succ k ih =>
    simp only [pfLoop] at h
    split at h
    · rename_i hn
      cases h
      exact ⟨hs, popNext_none hn⟩
    · rename_i c s' hn
      exact ih _ (hP s c s' hs hn) h

theorem pfLoop_terminates {raise : V → V} (streams : Bool)
    {nbr : Fin N → List ℕ} {dem0 : Fin N → Option V} {seed : List (Fin N)} (hinf : ∀ x, x ≤ raise x)
    (fuel : ℕ) (s : PF N V) (hi : Inv (· ≤ ·) nbr dem0 seed none s) (hf : N < fuel + s.done.length) :
    ∃ t, pfLoop raise streams nbr seed fuel s = .ok t := by
  have hlen : ∀ s : PF N V, Inv (· ≤ ·) nbr dem0 seed none s → s.done.length ≤ N := by
    intro s hi
    have := (List.nodup_append.1 hi.nodup).1.length_le_card
    simpa using this
  induction fuel generalizing s with
  | zero => have := hlen s hi; omega
  | succ k ih =>
    simp only [pfLoop]
    split
    · exact ⟨s, rfl⟩
    · rename_i c s' hn
      obtain ⟨h1, h2, _⟩ := inv_process (raise := raise) streams hinf hinf (fun _ _ h => h.le) hi hn
      refine ih _ h1 ?_
      rw [h2, List.length_append]
      simp; omega

/-- More fuel does not change the result. -/
theorem pfLoop_mono {raise : V → V} {streams : Bool} {nbr : Fin N → List ℕ} {seed : List (Fin N)}
    (fuel k : ℕ) (s t : PF N V) (h : pfLoop raise streams nbr seed fuel s = .ok t) :
    pfLoop raise streams nbr seed (fuel + k) s = .ok t := by
  induction fuel generalizing s with
  | zero => cases h
  | succ m ih =>
    rw [Nat.succ_add]
    simp only [pfLoop] at h ⊢
    split at h
    · exact h
    · exact ih _ h

/-- the final state -/
theorem final_of_ok {rel : V → V → Prop} {raise : V → V} (streams : Bool)
    {nbr : Fin N → List ℕ} {dem0 : Fin N → Option V} {seed : List (Fin N)} (hs : seed.Nodup)
    (hinf : ∀ x, x ≤ raise x) (hrel1 : ∀ x, rel x (raise x)) (hrel2 : ∀ x y, x < y → rel x y)
    (fuel : ℕ) (t : PF N V) (h : pfLoop raise streams nbr seed fuel (pfInit dem0 seed) = .ok t) :
    Inv rel nbr dem0 seed none t ∧ ∀ n, t.closed n = true ↔ Reach nbr (· ∈ seed) n := by
  obtain ⟨hi, hh, hp⟩ := pfLoop_inv (Inv rel nbr dem0 seed none)
    (fun s c s' hi hp => (inv_process streams hinf hrel1 hrel2 hi hp).1) fuel _ t
    (inv_init rel nbr dem0 seed hs) h
  have hq : t.queue = [] := by simp [PF.queue, hh, hp]
  have hcl : ∀ n, t.closed n = true ↔ n ∈ t.done := by intro n; rw [hi.cl, hq]; simp
  refine ⟨hi, fun n => ⟨hi.reach n, fun hr => ?_⟩⟩
  induction hr with
  | seed hsd => exact hi.seeds _ hsd
  | step _ ha ih => exact hi.doneCl _ ((hcl _).1 ih) (by simp) _ ha

end Dany.Nodata
