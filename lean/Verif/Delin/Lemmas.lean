import Verif.Delin.Model
import Verif.Delin.Spec
import Mathlib.Data.Fintype.Card
import Mathlib.Data.List.Nodup

/-!
# The chains of `threshold_from_control_points`
-/

namespace Dany.Delin

open Function Relation

variable {N : ℕ} {K : Type*}

theorem toFun_some {α : Type*} {l : List α} (h : l.length = N) :
    toFun N l = some (fun i => l[i.val]'(by rw [h]; exact i.isLt)) := by
  unfold toFun; rw [dif_pos h]

theorem toFun_none {α : Type*} {l : List α} (h : l.length ≠ N) : toFun N l = none := by
  unfold toFun; rw [dif_neg h]

variable [Field K] [LinearOrder K] [FloorRing K]
variable {nbs : Fin N → List (Fin N)} {fdir : Fin N → ℤ} {facc : Fin N → Option K}

theorem mem_flowsIn {u v : Fin N} {a : K} :
    (v, a) ∈ flowsIn nbs fdir facc u ↔ Tributary nbs fdir facc u v a := by
  unfold flowsIn Tributary
  rw [List.mem_filterMap]
  constructor
  · rintro ⟨n, hn, h⟩
    split at h
    · rename_i hf
      rw [Option.map_eq_some_iff] at h
      obtain ⟨a', ha, he⟩ := h
      simp only [Prod.mk.injEq] at he
      obtain ⟨rfl, rfl⟩ := he
      exact ⟨hn, hf, ha⟩
    · cases h
  · rintro ⟨h1, h2, h3⟩
    exact ⟨v, h1, by rw [if_pos h2, h3]; rfl⟩

theorem argmax_fold (l : List (Fin N × K)) (x : Fin N × K) :
    let m := l.foldl (fun m y => if m.2 < y.2 then y else m) x
    (m = x ∨ m ∈ l) ∧ x.2 ≤ m.2 ∧ ∀ y ∈ l, y.2 ≤ m.2 := by
  induction l generalizing x with
  | nil => simp
  | cons a l ih =>
    simp only [List.foldl_cons]
    obtain ⟨h1, h2, h3⟩ := ih (if x.2 < a.2 then a else x)
    have hx : x.2 ≤ (if x.2 < a.2 then a else x).2 ∧ a.2 ≤ (if x.2 < a.2 then a else x).2 := by
      split
      · rename_i h; exact ⟨h.le, le_rfl⟩
      · rename_i h; exact ⟨le_rfl, not_lt.1 h⟩
    refine ⟨?_, hx.1.trans h2, ?_⟩
    · rcases h1 with h | h
      · rw [h]
        split
        · right; simp
        · left; rfl
      · right; simp [h]
    · intro y hy
      rcases List.mem_cons.1 hy with rfl | hy
      · exact hx.2.trans h2
      · exact h3 y hy

theorem argmax_none {l : List (Fin N × K)} (h : argmax l = none) : l = [] := by
  cases l with
  | nil => rfl
  | cons a l => simp [argmax] at h

theorem argmax_some {l : List (Fin N × K)} {m : Fin N × K} (h : argmax l = some m) :
    m ∈ l ∧ ∀ y ∈ l, y.2 ≤ m.2 := by
  cases l with
  | nil => simp [argmax] at h
  | cons a l =>
    obtain ⟨h1, h2, h3⟩ := argmax_fold l a
    simp only [argmax, Option.some.injEq] at h
    rw [h] at h1 h2 h3
    refine ⟨?_, ?_⟩
    · rcases h1 with h1 | h1
      · rw [h1]; simp
      · simp [h1]
    · intro y hy
      rcases List.mem_cons.1 hy with rfl | hy
      · exact h2
      · exact h3 y hy

/-- the value written for an accumulation `a` -/
def lowered (isInt : Bool) (a : K) : K := if isInt = true then trunc (a - 5) else a - 5

theorem entry_some (isInt : Bool) (a : K) : entry isInt (some a) = .ok (some (lowered isInt a)) := by
  unfold entry lowered
  split <;> simp

omit [Field K] [LinearOrder K] [FloorRing K] in
theorem Flows.unique {a b c : Fin N} (h1 : Flows fdir a b) (h2 : Flows fdir a c) : b = c := by
  have := h1.2.symm.trans h2.2
  apply Fin.ext
  omega

omit [Field K] [LinearOrder K] [FloorRing K] in
/-- a path that starts on a loop stays on it -/
theorem onLoop_of_reaches {m p : Fin N} (h : OnLoop fdir m) (hr : ReflTransGen (Flows fdir) m p) :
    OnLoop fdir p := by
  induction hr with
  | refl => exact h
  | @tail b c _ hbc ih =>
    obtain ⟨x, hx, hxb⟩ := TransGen.head'_iff.1 ih
    rw [hx.unique hbc] at hxb
    exact TransGen.tail' hxb hbc

theorem chainLoop_ok (hirr : ∀ n, n ∉ nbs n) {isInt : Bool} {p : Fin N} (hp : ¬ OnLoop fdir p) :
    ∀ (fuel : ℕ) (node : Fin N) (arr : Fin N → Option K) (done : List (Fin N)),
      done.Nodup → node ∉ done → (∀ x ∈ done, ReflTransGen (Flows fdir) node x) →
      ReflTransGen (Flows fdir) node p → facc node ≠ none → N < fuel + done.length →
      ∃ c arr', chainLoop nbs fdir facc isInt fuel node arr = .ok arr' ∧ MainStem nbs fdir facc node c ∧
        (∀ u ∈ c, ∃ a, facc u = some a ∧ arr' u = some (lowered isInt a)) ∧
        (∀ u, u ∉ c → arr' u = arr u) := by
  intro fuel
  induction fuel with
  | zero =>
    intro node arr done hnd _ _ _ _ hlt
    have := hnd.length_le_card
    simp only [Fintype.card_fin] at this
    omega
  | succ k ih =>
    intro node arr done hnd hnot hdone hnp hsome hlt
    obtain ⟨a, ha⟩ := Option.ne_none_iff_exists'.1 hsome
    simp only [chainLoop, ha, entry_some, Res.bind_ok]
    cases hm : argmax (flowsIn nbs fdir facc node) with
    | none =>
      have hnil := argmax_none hm
      refine ⟨[node], _, rfl, ⟨rfl, by simp, ?_⟩, ?_, ?_⟩
      · intro u hu v b hb
        simp only [List.getLast?_singleton, Option.some.injEq] at hu
        subst hu
        have := mem_flowsIn.2 hb
        rw [hnil] at this
        cases this
      · intro u hu
        rw [List.mem_singleton] at hu
        subst hu
        exact ⟨a, ha, by simp⟩
      · intro u hu
        rw [update_of_ne (by simpa using hu)]
    | some m =>
      obtain ⟨hmem, hmax⟩ := argmax_some hm
      obtain ⟨v, b⟩ := m
      have ht : Tributary nbs fdir facc node v b := mem_flowsIn.1 hmem
      have hne : v ≠ node := by
        rintro rfl
        exact hirr v ht.1
      have hfl : Flows fdir v node := ⟨hne, ht.2.1⟩
      have hvp : ReflTransGen (Flows fdir) v p := ReflTransGen.head hfl hnp
      have hvnew : v ∉ done ++ [node] := by
        intro hv
        rcases List.mem_append.1 hv with hv | hv
        · exact hp (onLoop_of_reaches (TransGen.head' hfl (hdone v hv)) hvp)
        · exact hne (List.mem_singleton.1 hv)
      obtain ⟨c, arr', e, hs, h1, h2⟩ := ih v (update arr node (some (lowered isInt a))) (done ++ [node])
        (by
          rw [List.nodup_append]
          refine ⟨hnd, by simp, ?_⟩
          intro x hx y hy
          rw [List.mem_singleton] at hy
          subst hy
          rintro rfl
          exact hnot hx)
        hvnew (by
          intro x hx
          rcases List.mem_append.1 hx with hx | hx
          · exact ReflTransGen.head hfl (hdone x hx)
          · rw [List.mem_singleton] at hx
            subst hx
            exact ReflTransGen.single hfl) hvp (by rw [ht.2.2]; simp)
        (by simp only [List.length_append, List.length_singleton]; omega)
      have hcne : c ≠ [] := by
        intro h
        have := hs.start
        rw [h] at this
        simp at this
      refine ⟨node :: c, arr', e, ⟨rfl, ?_, ?_⟩, ?_, ?_⟩
      · rw [List.isChain_cons]
        refine ⟨?_, hs.steps⟩
        intro y hy
        rw [hs.start, Option.mem_some_iff] at hy
        subst hy
        exact ⟨b, ht, fun w d hw => hmax (w, d) (mem_flowsIn.2 hw)⟩
      · intro u hu
        rw [List.getLast?_cons, Option.some.injEq] at hu
        apply hs.ends u
        obtain ⟨z, hz⟩ := Option.ne_none_iff_exists'.1 (by
          rw [Ne, List.getLast?_eq_none_iff]; exact hcne : c.getLast? ≠ none)
        rw [hz] at hu ⊢
        simpa using hu
      · intro u hu
        rcases List.mem_cons.1 hu with rfl | hu
        · by_cases huc : u ∈ c
          · exact h1 u huc
          · exact ⟨a, ha, by rw [h2 u huc, update_self]⟩
        · exact h1 u hu
      · intro u hu
        rw [List.mem_cons, not_or] at hu
        rw [h2 u hu.2, update_of_ne hu.1]

theorem points_ok (hirr : ∀ n, n ∉ nbs n) {isInt : Bool} {fuel : ℕ} (hf : N < fuel) :
    ∀ (cells : List (Fin N)) (arr : Fin N → Option K),
      (∀ p ∈ cells, ¬ OnLoop fdir p ∧ facc p ≠ none) →
      ∃ (stems : List (List (Fin N))) (arr' : Fin N → Option K),
        cells.foldl (pointStep nbs fdir facc isInt fuel) (.ok arr) = .ok arr' ∧
        List.Forall₂ (MainStem nbs fdir facc) cells stems ∧
        (∀ u, (∃ c ∈ stems, u ∈ c) → ∃ a, facc u = some a ∧ arr' u = some (lowered isInt a)) ∧
        (∀ u, (∀ c ∈ stems, u ∉ c) → arr' u = arr u) := by
  intro cells
  induction cells with
  | nil => intro arr _; exact ⟨[], arr, rfl, .nil, by simp, by simp⟩
  | cons p cells ih =>
    intro arr hp
    obtain ⟨c, arr1, e1, k1, k2, k3⟩ := chainLoop_ok (facc := facc) hirr (isInt := isInt) (hp p (by simp)).1
      fuel p arr [] List.nodup_nil (by simp) (by simp) ReflTransGen.refl (hp p (by simp)).2
      (by simpa using hf)
    obtain ⟨stems, arr2, e2, h1, h2, h3⟩ := ih arr1 (fun q hq => hp q (by simp [hq]))
    refine ⟨c :: stems, arr2, ?_, .cons k1 h1, ?_, ?_⟩
    · rw [List.foldl_cons]
      simp only [pointStep, Res.bind_ok, e1]
      exact e2
    · rintro u ⟨c', hc', hu⟩
      by_cases hex : ∃ c ∈ stems, u ∈ c
      · exact h2 u hex
      · push Not at hex
        rw [h3 u hex]
        rcases List.mem_cons.1 hc' with rfl | hc'
        · exact k2 u hu
        · exact absurd hu (hex c' hc')
    · intro u hu
      rw [h3 u (fun c' hc' => hu c' (by simp [hc'])), k3 u (hu c (by simp))]

end Dany.Delin
