import Verif.Topo.Model
import Verif.Topo.Spec

/-!
# The recursion of `Topology._sort_util`
-/

namespace Dany.Topo

open Relation

variable {topo : Dict ℤ ℤ}

/-- no path of unvisited segments that starts in `seg` is longer than `limit` -/
def Room (topo : Dict ℤ ℤ) (v : Dict ℤ Bool) (seg : ℤ) (limit : ℕ) : Prop :=
  ∀ p : List ℤ, (seg :: p).IsChain (FlowsTo topo) → (seg :: p).Nodup →
    (∀ x ∈ seg :: p, v.get? x = some false) → p.length + 1 ≤ limit

/-- everything the invariant says about the visited dictionary and the result list, `P` being the
segments whose calls have not returned -/
structure SInv (topo : Dict ℤ ℤ) (P : ℤ → Prop) (v : Dict ℤ Bool) (S : List ℤ) : Prop where
  keys : ∀ x, (v.get? x).isSome ↔ x = 0 ∨ x ∈ topo.keys
  mem : ∀ x, x ∈ S ↔ v.get? x = some true ∧ x ≠ 0 ∧ ¬ P x
  nodup : S.Nodup

/-- every listed segment stands before the one it flows into -/
def Ordered (topo : Dict ℤ ℤ) (S : List ℤ) : Prop :=
  ∀ x ∈ S, ∀ y, FlowsTo topo x y → y ≠ 0 → y ≠ x → Before S x y

theorem before_append {l : List ℤ} {x y : ℤ} (h : Before l x y) (m : List ℤ) :
    Before (l ++ m) x y := by
  obtain ⟨a, b, rfl, hy⟩ := h
  exact ⟨a, b ++ m, by simp, by simp [hy]⟩

theorem before_cons {l : List ℤ} {x y : ℤ} (h : Before l x y) (z : ℤ) : Before (z :: l) x y := by
  obtain ⟨a, b, rfl, hy⟩ := h
  exact ⟨z :: a, b, by simp, hy⟩

theorem sortUtil_spec (href : RefsExist topo) :
    ∀ (limit : ℕ) (seg : ℤ) (P : ℤ → Prop) (v : Dict ℤ Bool) (S : List ℤ),
      SInv topo P v S → (∀ p, P p → v.get? p = some true) → v.get? seg = some false →
      Room topo v seg limit →
      ∃ v' S', sortUtil topo limit seg v S = .ok (v', S') ∧ SInv topo P v' S' ∧
        (∀ x, v.get? x = some true → v'.get? x = some true) ∧ v'.get? seg = some true ∧
        (Acyclic topo → (∀ p, P p → ReflTransGen (FlowsTo topo) p seg) → Ordered topo S →
          Ordered topo S') := by
  intro limit
  induction limit with
  | zero =>
    intro seg P v S _ _ hseg hl
    have := hl [] (by simp) (by simp) (by simpa using hseg)
    omega
  | succ k ih =>
    intro seg P v S hi hP hseg hl
    have hPseg : ¬ P seg := fun h => by rw [hP seg h] at hseg; cases hseg
    have hsegS : seg ∉ S := fun h => by
      have := ((hi.mem seg).1 h).1
      rw [hseg] at this; cases this
    have hkey : seg = 0 ∨ seg ∈ topo.keys := (hi.keys seg).1 (by rw [hseg]; rfl)
    simp only [sortUtil]
    by_cases h0 : seg = 0
    · subst h0
      simp only [if_true, Res.bind_ok, Dict.getE, Dict.get?_set_self]
      refine ⟨_, S, rfl, ⟨?_, ?_, hi.nodup⟩, ?_, Dict.get?_set_self _ _ _, fun _ _ h => h⟩
      · intro x
        rw [Dict.get?_set]
        split
        · rename_i h; simp [h]
        · exact hi.keys x
      · intro x
        rw [hi.mem x, Dict.get?_set]
        split
        · rename_i h; simp [h]
        · rfl
      · intro x hx
        rw [Dict.get?_set]
        split
        · rfl
        · exact hx
    · have hkey := hkey.resolve_left h0
      obtain ⟨out, hout⟩ := Dict.mem_keys_iff.1 hkey
      have hflow : FlowsTo topo seg out := ⟨h0, hout⟩
      have hgetE : topo.getE seg = .ok out := by simp [Dict.getE, hout]
      rw [if_neg h0, hgetE, Res.bind_ok]
      have hv1keys : ∀ x, ((v.set seg true).get? x).isSome ↔ x = 0 ∨ x ∈ topo.keys := by
        intro x
        rw [Dict.get?_set]
        split
        · rename_i h; simp [h, hkey]
        · exact hi.keys x
      obtain ⟨seen, hseen⟩ := Option.isSome_iff_exists.1 ((hv1keys out).2 (href _ _ hflow))
      have hgetE2 : (v.set seg true).getE out = .ok seen := by simp [Dict.getE, hseen]
      rw [hgetE2, Res.bind_ok]
      -- the state after the possible recursive call
      have hrec : ∃ v2 S2, (if seen = true then Res.ok (v.set seg true, S)
            else sortUtil topo k out (v.set seg true) S) = .ok (v2, S2) ∧
          SInv topo (fun x => P x ∨ x = seg) v2 S2 ∧
          (∀ x, (v.set seg true).get? x = some true → v2.get? x = some true) ∧
          v2.get? out = some true ∧
          (Acyclic topo → (∀ p, P p ∨ p = seg → ReflTransGen (FlowsTo topo) p seg) →
            Ordered topo S → Ordered topo S2) := by
        have hi1 : SInv topo (fun x => P x ∨ x = seg) (v.set seg true) S := by
          refine ⟨hv1keys, ?_, hi.nodup⟩
          intro x
          rw [hi.mem x, Dict.get?_set]
          by_cases hx : x = seg
          · subst hx; simp [hseg]
          · simp [hx]
        cases seen with
        | true => exact ⟨_, S, by simp, hi1, fun _ h => h, hseen, fun _ _ h => h⟩
        | false =>
          obtain ⟨v2, S2, e, h1, h2, h3, h4⟩ := ih out (fun x => P x ∨ x = seg) (v.set seg true) S hi1
            (by
              rintro p (hp | rfl)
              · rw [Dict.get?_set]
                split
                · rfl
                · exact hP p hp
              · exact Dict.get?_set_self _ _ _) hseen (by
              intro p hc hp hu
              have hs : seg ∉ out :: p := fun h => by
                have := hu seg h
                rw [Dict.get?_set_self] at this
                cases this
              have := hl (out :: p) (List.IsChain.cons_cons hflow hc) (List.nodup_cons.2 ⟨hs, hp⟩) (by
                intro x hx
                rcases List.mem_cons.1 hx with rfl | hx
                · exact hseg
                · have h1 := hu x hx
                  rw [Dict.get?_set, if_neg (fun h : x = seg => hs (h ▸ hx))] at h1
                  exact h1)
              simpa using this)
          exact ⟨v2, S2, by simpa using e, h1, h2, h3,
            fun ha hr => h4 ha (fun p hp => (hr p hp).tail hflow)⟩
      obtain ⟨v2, S2, e, hi2, hmono, hout2, hord⟩ := hrec
      rw [e, Res.bind_ok, if_neg h0]
      have hseg2 : v2.get? seg = some true := hmono seg (Dict.get?_set_self _ _ _)
      have hsegS2 : seg ∉ S2 := fun h => ((hi2.mem seg).1 h).2.2 (.inr rfl)
      have hmono' : ∀ x, v.get? x = some true → v2.get? x = some true := by
        intro x hx
        apply hmono
        rw [Dict.get?_set]
        split
        · rfl
        · exact hx
      have hmem : ∀ x, (x = seg ∨ x ∈ S2) ↔ v2.get? x = some true ∧ x ≠ 0 ∧ ¬ P x := by
        intro x
        rw [hi2.mem x]
        by_cases hx : x = seg
        · subst hx; simp [hseg2, h0, hPseg]
        · simp [hx]
      split
      · rename_i ho
        refine ⟨_, _, rfl, ⟨hi2.keys, ?_, ?_⟩, hmono', hseg2, ?_⟩
        · intro x; rw [← hmem x]; simp [or_comm]
        · rw [List.nodup_append]
          refine ⟨hi2.nodup, by simp, ?_⟩
          intro a ha b hb
          rw [List.mem_singleton] at hb
          subst hb
          rintro rfl
          exact hsegS2 ha
        · intro ha hr hS x hx y hxy hy0 hyx
          rw [List.mem_append, List.mem_singleton] at hx
          rcases hx with hx | rfl
          · exact before_append (hord ha (by
              rintro p (hp | rfl)
              · exact hr p hp
              · exact .refl) hS x hx y hxy hy0 hyx) _
          · have : y = out := by have := hxy.2; rw [hout] at this; cases this; rfl
            exact absurd (this.trans ho) hy0
      · rename_i ho
        refine ⟨_, _, rfl, ⟨hi2.keys, ?_, ?_⟩, hmono', hseg2, ?_⟩
        · intro x; rw [← hmem x]; simp
        · exact List.nodup_cons.2 ⟨hsegS2, hi2.nodup⟩
        · intro ha hr hS x hx y hxy hy0 hyx
          rcases List.mem_cons.1 hx with rfl | hx
          · have hyo : y = out := by have := hxy.2; rw [hout] at this; cases this; rfl
            subst hyo
            have hyS : y ∈ S2 := by
              rw [hi2.mem y]
              refine ⟨hout2, ho, ?_⟩
              rintro (hp | hp)
              · exact hyx (ha y x (hr y hp) (.single hflow))
              · exact hyx hp
            exact ⟨[], S2, rfl, hyS⟩
          · exact before_cons (hord ha (by
              rintro p (hp | rfl)
              · exact hr p hp
              · exact .refl) hS x hx y hxy hy0 hyx) _

theorem initVisited_get (topo : Dict ℤ ℤ) (x : ℤ) :
    (initVisited topo).get? x = if x = 0 ∨ x ∈ topo.keys then some false else none := by
  have key : ∀ (l : List ℤ) (v : Dict ℤ Bool),
      (l.foldl (fun v k => v.set k false) v).get? x = if x ∈ l then some false else v.get? x := by
    intro l
    induction l with
    | nil => intro v; simp
    | cons a l ih =>
      intro v
      rw [List.foldl_cons, ih, Dict.get?_set]
      by_cases h1 : x ∈ l
      · simp [h1]
      · by_cases h2 : x = a <;> simp [h1, h2]
  unfold initVisited
  rw [key]
  by_cases h1 : x ∈ topo.keys
  · simp [h1]
  · by_cases h2 : x = 0
    · simp [h2, Dict.get?]
    · simp [h1, h2, Dict.get?, Ne.symm h2]

theorem initVisited_nodup (topo : Dict ℤ ℤ) : (initVisited topo).keys.Nodup := by
  have key : ∀ (l : List ℤ) (v : Dict ℤ Bool), v.keys.Nodup →
      (l.foldl (fun v k => v.set k false) v).keys.Nodup := by
    intro l
    induction l with
    | nil => intro v h; exact h
    | cons a l ih => intro v h; exact ih _ (Dict.nodup_keys_set h _ _)
  exact key _ _ (by simp [Dict.keys])

theorem initVisited_mem (topo : Dict ℤ ℤ) (x : ℤ) :
    x ∈ (initVisited topo).keys ↔ x = 0 ∨ x ∈ topo.keys := by
  rw [← Dict.get?_isSome, initVisited_get]
  split <;> simp_all

theorem sort_loop (href : RefsExist topo) {limit : ℕ} (hl : ShortPaths topo limit) :
    ∀ (l : List ℤ) (v : Dict ℤ Bool) (S : List ℤ), SInv topo (fun _ => False) v S →
      (∀ x ∈ l, x = 0 ∨ x ∈ topo.keys) →
      ∃ v' S', l.foldl (sortStep limit topo) (.ok (v, S)) = .ok (v', S') ∧
        SInv topo (fun _ => False) v' S' ∧
        (∀ x, v.get? x = some true → v'.get? x = some true) ∧
        (∀ x ∈ l, x ≠ 0 → v'.get? x = some true) ∧
        (Acyclic topo → Ordered topo S → Ordered topo S') := by
  intro l
  induction l with
  | nil =>
    intro v S hi _
    exact ⟨v, S, rfl, hi, fun _ h => h, by simp, fun _ h => h⟩
  | cons i l ih =>
    intro v S hi hk
    rw [List.foldl_cons]
    have hstep : ∃ v1 S1, sortStep limit topo (.ok (v, S)) i = .ok (v1, S1) ∧
        SInv topo (fun _ => False) v1 S1 ∧ (∀ x, v.get? x = some true → v1.get? x = some true) ∧
        (i ≠ 0 → v1.get? i = some true) ∧
        (Acyclic topo → Ordered topo S → Ordered topo S1) := by
      simp only [sortStep, Res.bind_ok]
      by_cases h0 : i = 0
      · exact ⟨v, S, by simp [h0], hi, fun _ h => h, fun h => absurd h0 h, fun _ h => h⟩
      · rw [if_neg h0]
        obtain ⟨seen, hseen⟩ := Option.isSome_iff_exists.1 ((hi.keys i).2 (hk i (by simp)))
        have : v.getE i = .ok seen := by simp [Dict.getE, hseen]
        rw [this, Res.bind_ok]
        cases seen with
        | true => exact ⟨v, S, by simp, hi, fun _ h => h, fun _ => hseen, fun _ h => h⟩
        | false =>
          obtain ⟨v1, S1, e, h1, h2, h3, h5⟩ := sortUtil_spec href limit i (fun _ => False) v S hi
            (fun _ h => h.elim) hseen (fun p hc hp _ => by simpa using hl (i :: p) hc hp)
          exact ⟨v1, S1, by simpa using e, h1, h2, fun _ => h3,
            fun ha => h5 ha (fun _ h => h.elim)⟩
    obtain ⟨v1, S1, e, hi1, hm1, hv1, ho1⟩ := hstep
    rw [e]
    obtain ⟨v', S', e', hi', hm', hv', ho'⟩ := ih v1 S1 hi1 (fun x hx => hk x (by simp [hx]))
    refine ⟨v', S', e', hi', fun x hx => hm' x (hm1 x hx), ?_, fun ha hS => ho' ha (ho1 ha hS)⟩
    intro x hx h0
    rcases List.mem_cons.1 hx with rfl | hx
    · exact hm' x (hv1 h0)
    · exact hv' x hx h0

theorem shortPaths_of_length {n : ℕ} (h : topo.length + 1 ≤ n) : ShortPaths topo n := by
  intro p hc hp
  refine le_trans ?_ h
  have hk : ∀ x ∈ p.dropLast, x ∈ topo.keys := by
    intro x hx
    obtain ⟨i, hi, rfl⟩ := List.getElem_of_mem hx
    rw [List.length_dropLast] at hi
    rw [List.getElem_dropLast]
    have := List.isChain_iff_getElem.1 hc i (by omega)
    exact Dict.mem_keys_iff.2 ⟨_, this.2⟩
  have h1 : p.dropLast.length ≤ topo.keys.length :=
    (List.subperm_of_subset (hp.sublist (List.dropLast_sublist p)) hk).length_le
  simp [Dict.keys] at h1
  omega

/-- a larger recursion limit does not change the outcome of a call that did not exceed the smaller one -/
theorem sortUtil_leRec {a b : ℕ} (h : a ≤ b) (seg : ℤ) (v : Dict ℤ Bool) (S : List ℤ) :
    (sortUtil topo a seg v S).LeRec (sortUtil topo b seg v S) := by
  induction a generalizing b seg v S with
  | zero => exact .inl rfl
  | succ a ih =>
    obtain ⟨b, rfl⟩ : ∃ c, b = c + 1 := ⟨b - 1, by omega⟩
    simp only [sortUtil]
    refine (Res.LeRec.refl _).bind fun _ => (Res.LeRec.refl _).bind fun seen => Res.LeRec.bind ?_
      fun _ => .refl _
    split
    · exact .refl _
    · exact ih (by omega) _ _ _

theorem sort_leRec {a b : ℕ} (h : a ≤ b) : (sort a topo).LeRec (sort b topo) := by
  have key : ∀ (l : List ℤ) (r s : Res (Dict ℤ Bool × List ℤ)), r.LeRec s →
      (l.foldl (sortStep a topo) r).LeRec (l.foldl (sortStep b topo) s) := by
    intro l
    induction l with
    | nil => intro r s h; exact h
    | cons i l ih =>
      intro r s hrs
      rw [List.foldl_cons, List.foldl_cons]
      apply ih
      unfold sortStep
      refine hrs.bind fun s => ?_
      split
      · exact .refl _
      · refine (Res.LeRec.refl _).bind fun seen => ?_
        split
        · exact .refl _
        · exact sortUtil_leRec h _ _ _
  exact (key _ _ _ (.refl _)).map _

theorem sort_ok (href : RefsExist topo) {limit : ℕ} (hl : ShortPaths topo limit) :
    ∃ S, sort limit topo = .ok S ∧ S.Nodup ∧ (∀ x, x ∈ S ↔ x ≠ 0 ∧ x ∈ topo.keys) ∧
      (Acyclic topo → Ordered topo S) := by
  have hmem : ∀ x, x ∈ (initVisited topo).keys.insertionSort (· ≤ ·) ↔ x = 0 ∨ x ∈ topo.keys := by
    intro x
    rw [(List.perm_insertionSort (· ≤ ·) _).mem_iff, initVisited_mem]
  obtain ⟨v, S, e, hi, _, hv, ho⟩ := sort_loop href hl
    ((initVisited topo).keys.insertionSort (· ≤ ·)) (initVisited topo) []
    ⟨by intro x; rw [initVisited_get]; split <;> simp_all,
     by intro x; rw [initVisited_get]; split <;> simp, by simp⟩
    (fun x hx => (hmem x).1 hx)
  refine ⟨S, by simp [sort, e], hi.nodup, ?_, fun ha => ho ha (by intro x hx; simp at hx)⟩
  intro x
  rw [hi.mem x]
  constructor
  · rintro ⟨h1, h2, _⟩
    exact ⟨h2, ((hi.keys x).1 (by rw [h1]; rfl)).resolve_left h2⟩
  · rintro ⟨h1, h2⟩
    exact ⟨hv x ((hmem x).2 (.inr h2)) h1, h1, not_false⟩

/-- whatever the recursion limit: `RecursionError` or a sorted list -/
theorem sort_cases (href : RefsExist topo) (limit : ℕ) :
    sort limit topo = .err .recursionError ∨
    ∃ S, sort limit topo = .ok S ∧ S.Nodup ∧ (∀ x, x ∈ S ↔ x ≠ 0 ∧ x ∈ topo.keys) ∧
      (Acyclic topo → Ordered topo S) := by
  obtain ⟨S, e, h⟩ := sort_ok href (limit := max limit (topo.length + 1))
    (shortPaths_of_length (le_max_right _ _))
  rcases sort_leRec (topo := topo) (le_max_left limit (topo.length + 1)) with h1 | h1
  · exact .inl h1
  · exact .inr ⟨S, h1.trans e, h⟩

end Dany.Topo
