import Verif.Dtype.Model
import Verif.Seg.Ungroup
import Verif.Prms.Props
import Mathlib.Data.Fin.VecNotation

/-!
# C95, C96: the type of the stream array
-/

namespace Dany.Dtype

open Function Flow

variable {N : ℕ} {D : Dtype} {fdir : Fin N → ℤ} {d : Fin N → Fin N} {sa : Fin N → D.W} {limit fuel : ℕ}

/-! ### Specification -/

/-- the stream cells of an array: 1 where the entry is not equal to 0, else 0 -/
def marks (D : Dtype) (sa : Fin N → D.W) : Fin N → ℤ := fun n => if D.val (sa n) = some 0 then 0 else 1

/-- the type holds the integers from 0 to `k` exactly -/
def ExactTo (D : Dtype) (k : ℤ) : Prop := ∀ i, 0 ≤ i → i ≤ k → D.val (D.store i) = some i

/-- what a call of the MODFLOW-2005 connectivity yields apart from the numbered array -/
def tables (o : Seg.Out N) : Dict (Fin N) (Option (Fin N)) × Dict ℤ ℤ × List (Fin N × ℤ × ℤ) :=
  (o.graph, o.sg, o.nsr)

theorem exact_int (k : ℤ) : ExactTo int k := fun _ _ _ => rfl

theorem exact_float (k : ℤ) : ExactTo float k := fun i _ _ => by simp [float]

/-! ### Stream cells -/

theorem marks_ne {n : Fin N} : marks D sa n ≠ 0 ↔ D.val (sa n) ≠ some 0 := by
  unfold marks; split <;> simp_all

theorem strmNodes_eq (sa : Fin N → D.W) : strmNodes D sa = Reach.strmNodes (marks D sa) := by
  unfold strmNodes Reach.strmNodes
  apply List.filter_congr
  intro n _
  rw [decide_eq_decide]
  exact marks_ne.symm

theorem cellGraph_eq (fdir : Fin N → ℤ) (sa : Fin N → D.W) :
    cellGraph D fdir sa = Seg.cellGraph fdir (marks D sa) := by
  unfold cellGraph Seg.cellGraph
  rw [strmNodes_eq]

/-! ### MODFLOW-2005: simulation -/

/-- same outcome up to `R` -/
def RelRes {α β : Type*} (R : α → β → Prop) : Res α → Res β → Prop
  | .ok a, .ok b => R a b
  | .err e, .err e' => e = e'
  | .hang, .hang => True
  | _, _ => False

theorem RelRes.bind {α β α' β' : Type*} {R : α → β → Prop} {S : α' → β' → Prop} {x : Res α} {y : Res β}
    {f : α → Res α'} {g : β → Res β'} (h : RelRes R x y) (hfg : ∀ a b, R a b → RelRes S (f a) (g b)) :
    RelRes S (x.bind f) (y.bind g) := by
  cases x <;> cases y <;> simp_all [RelRes]

theorem RelRes.refl {α : Type*} {R : α → α → Prop} (hR : ∀ a, R a a) (x : Res α) : RelRes R x x := by
  cases x <;> simp [RelRes, hR]

/-- states that agree on the tables, with arrays related by `P` -/
def Rel (P : (Fin N → D.W) → (Fin N → ℤ) → Prop) (x : WState N D) (y : Seg.WState N) : Prop :=
  x.nsr = y.nsr ∧ x.sg = y.sg ∧ P x.sa y.sa

/-- `P` survives writing numbers that satisfy `ok` -/
def Stable (P : (Fin N → D.W) → (Fin N → ℤ) → Prop) (ok : ℤ → Prop) : Prop :=
  ∀ a b n s, P a b → ok s → P (update a n (D.store s)) (update b n s)

section Sim

variable {P : (Fin N → D.W) → (Fin N → ℤ) → Prop} {ok : ℤ → Prop}

theorem walk_sim (hP : Stable P ok) (g : Dict (Fin N) (Option (Fin N))) (starts : Dict (Fin N) ℤ) {seg : ℤ}
    (hs : ok seg) : ∀ (fuel : ℕ) (node : Fin N) (rch : ℤ) (x : WState N D) (y : Seg.WState N), Rel P x y →
      RelRes (Rel P) (walk D g starts seg fuel node rch x) (Seg.walk g starts seg fuel node rch y) := by
  intro fuel
  induction fuel with
  | zero => intro _ _ _ _ _; exact trivial
  | succ fuel ih =>
    rintro node rch x y ⟨h1, h2, h3⟩
    unfold walk Seg.walk
    dsimp only
    refine RelRes.bind (R := Eq) (RelRes.refl (fun _ => rfl) _) ?_
    rintro dn _ rfl
    have h3' := hP _ _ node seg h3 hs
    cases dn with
    | none => exact ⟨by rw [h1], by rw [h2], h3'⟩
    | some m =>
      dsimp only
      cases starts.get? m with
      | some s => exact ⟨by rw [h1], by rw [h2], h3'⟩
      | none => exact ih m (rch + 1) _ _ ⟨by rw [h1], h2, h3'⟩

theorem grouped_sim (hP : Stable P ok) (g : Dict (Fin N) (Option (Fin N))) {a : Fin N → D.W} {b : Fin N → ℤ}
    (hab : P a b) (hs : ∀ e ∈ Seg.segStarts g, ok e.2) :
    RelRes (Rel P) (grouped D fuel g a) (Seg.grouped fuel g b) := by
  unfold grouped Seg.grouped
  generalize Seg.segStarts g = starts at hs ⊢
  have key : ∀ (l : List (Fin N × ℤ)) (x : Res (WState N D)) (y : Res (Seg.WState N)),
      (∀ e ∈ l, ok e.2) → RelRes (Rel P) x y →
      RelRes (Rel P) (l.foldl (walkStep D fuel g starts) x) (l.foldl (Seg.walkStep fuel g starts) y) := by
    intro l
    induction l with
    | nil => intro x y _ h; exact h
    | cons e l ih =>
      intro x y hl h
      exact ih _ _ (fun e' he' => hl e' (by simp [he']))
        (h.bind fun p q hpq => walk_sim hP g starts (hl e (by simp)) fuel e.1 1 p q hpq)
  exact key starts _ _ hs ⟨rfl, rfl, hab⟩

theorem ungrouped_sim (hP : Stable P ok) (g : Dict (Fin N) (Option (Fin N))) {a : Fin N → D.W} {b : Fin N → ℤ}
    (hab : P a b) (hs : ∀ n s, (g.foldl Seg.ndStep ([], 1)).1.get? n = some s → ok s) :
    RelRes (Rel P) (ungrouped D g a) (Seg.ungrouped g b) := by
  unfold ungrouped Seg.ungrouped
  generalize (g.foldl Seg.ndStep ([], 1)).1 = nd at hs ⊢
  have hget : ∀ n, RelRes (fun s t => s = t ∧ ok s) (nd.getE n) (nd.getE n) := by
    intro n
    unfold Dict.getE
    cases h : nd.get? n with
    | none => exact rfl
    | some s => exact ⟨rfl, hs n s h⟩
  have key : ∀ (l : List (Fin N × Option (Fin N))) (x : Res (WState N D)) (y : Res (Seg.WState N)),
      RelRes (Rel P) x y →
      RelRes (Rel P) (l.foldl (ungroupStep D nd) x) (l.foldl (Seg.ungroupStep nd) y) := by
    intro l
    induction l with
    | nil => intro x y h; exact h
    | cons e l ih =>
      intro x y h
      refine ih _ _ (h.bind fun p q hpq => ?_)
      obtain ⟨h1, h2, h3⟩ := hpq
      refine (hget e.1).bind ?_
      rintro s _ ⟨rfl, hok⟩
      have h3' := hP _ _ e.1 s h3 hok
      cases e.2 with
      | none => exact ⟨by rw [h1], by rw [h2], h3'⟩
      | some m =>
        refine (hget m).bind ?_
        rintro t _ ⟨rfl, hok'⟩
        by_cases hts : t = s
        · rw [if_pos hts, if_pos hts]; exact ⟨by rw [h1], by rw [h2], h3'⟩
        · rw [if_neg hts, if_neg hts]; exact ⟨by rw [h1], by rw [h2], hP _ _ m t h3' hok'⟩
  exact key g _ _ ⟨rfl, rfl, hab⟩

/-- The whole call: the tables agree and the arrays come from states related by `P`. -/
theorem mf2005_sim (hP : Stable P ok) (b : Bool) (group : Bool) {sai : Fin N → ℤ}
    (hm : ∀ n, marks D sa n = 0 ↔ sai n = 0) (hab : P sa sai)
    (hg : ∀ e ∈ Seg.segStarts (Seg.cellGraph fdir sai), ok e.2)
    (hu : ∀ n s, ((Seg.cellGraph fdir sai).foldl Seg.ndStep ([], 1)).1.get? n = some s → ok s) :
    RelRes (fun x y : Seg.Out N => tables x = tables y ∧ ∃ mp a b, P a b ∧ x.sa = segArray D mp a ∧
        y.sa = Seg.segArray mp b)
      (mf2005 D limit fuel b fdir sa group) (Seg.mf2005 limit fuel b fdir sai group) := by
  have hcg : cellGraph D fdir sa = Seg.cellGraph fdir sai := by
    rw [cellGraph_eq]
    unfold Seg.cellGraph
    have : Reach.strmNodes (marks D sa) = Reach.strmNodes sai := by
      unfold Reach.strmNodes
      apply List.filter_congr
      intro n _
      simp [hm n]
    rw [this]
  unfold mf2005 Seg.mf2005
  rw [hcg]
  have h1 : RelRes (Rel P)
      (if group = true then grouped D fuel (Seg.cellGraph fdir sai) sa
        else ungrouped D (Seg.cellGraph fdir sai) sa)
      (if group = true then Seg.grouped fuel (Seg.cellGraph fdir sai) sai
        else Seg.ungrouped (Seg.cellGraph fdir sai) sai) := by
    split
    · exact grouped_sim hP _ hab hg
    · exact ungrouped_sim hP _ hab hu
  refine h1.bind ?_
  rintro ⟨nsr, a, sg⟩ ⟨_, b', _⟩ ⟨rfl, rfl, hp⟩
  unfold finish Seg.finish
  refine RelRes.bind (R := Eq) (RelRes.refl (fun _ => rfl) _) ?_
  rintro order _ rfl
  refine RelRes.bind (R := Eq) (RelRes.refl (fun _ => rfl) _) ?_
  rintro nsr' _ rfl
  refine RelRes.bind (R := Eq) (RelRes.refl (fun _ => rfl) _) ?_
  rintro sg' _ rfl
  refine RelRes.bind (R := Eq) (RelRes.refl (fun _ => rfl) _) ?_
  rintro _ _ rfl
  exact ⟨rfl, _, a, b', hp, rfl, rfl⟩

end Sim

theorem starts_range {sai : Fin N → ℤ} {e : Fin N × ℤ} (he : e ∈ Seg.segStarts (Seg.cellGraph fdir sai)) :
    1 ≤ e.2 ∧ e.2 ≤ N := by
  obtain ⟨h1, h2, _⟩ := Seg.segStarts_ok fdir sai
  have hm : e.2 ∈ (Seg.segStarts (Seg.cellGraph fdir sai)).map Prod.snd := List.mem_map.2 ⟨e, he, rfl⟩
  rw [h2, List.mem_map] at hm
  obtain ⟨i, hi, hie⟩ := hm
  rw [List.mem_range] at hi
  have hlen : (Seg.segStarts (Seg.cellGraph fdir sai)).length ≤ N := by
    have := h1.length_le_card
    rw [Fintype.card_fin] at this
    simpa [Dict.keys] using this
  omega

theorem nd_range {sai : Fin N → ℤ} {n : Fin N} {s : ℤ}
    (h : ((Seg.cellGraph fdir sai).foldl Seg.ndStep ([], 1)).1.get? n = some s) : 1 ≤ s ∧ s ≤ N := by
  obtain ⟨hN, _⟩ := Seg.ndFold_ok (Seg.cellGraph fdir sai) ([], 1) Seg.Numbered.nil
  set nd := ((Seg.cellGraph fdir sai).foldl Seg.ndStep ([], 1)).1
  have hm : s ∈ nd.map Prod.snd := List.mem_map.2 ⟨_, Dict.mem_of_get? h, rfl⟩
  rw [hN.vals, List.mem_map] at hm
  obtain ⟨i, hi, hie⟩ := hm
  rw [List.mem_range] at hi
  have hi' : i < nd.length := hi
  have hlen : nd.length ≤ N := by
    have := hN.nodup.length_le_card
    rw [Fintype.card_fin] at this
    simpa [Dict.keys] using this
  omega

/-! ### C95: MODFLOW-2005 -/

/-- **C95** (partial).  Whatever the type of the stream array, the tables of the MODFLOW-2005 network
(segment graph, cell graph, rows) are those of the integer array that marks its stream cells, and the call
fails exactly if that one does.  Missing: the numbered array. -/
theorem C95_tables_partial (b group : Bool) :
    (mf2005 D limit fuel b fdir sa group).map tables =
      (Seg.mf2005 limit fuel b fdir (marks D sa) group).map tables := by
  have := mf2005_sim (limit := limit) (fuel := fuel) (fdir := fdir) (sa := sa) (sai := marks D sa)
    (P := fun _ _ => True) (ok := fun _ => True) (fun _ _ _ _ _ _ => trivial) b group (fun _ => Iff.rfl)
    trivial (fun _ _ => trivial) (fun _ _ _ => trivial)
  revert this
  cases mf2005 D limit fuel b fdir sa group <;> cases Seg.mf2005 limit fuel b fdir (marks D sa) group <;>
    simp +contextual [RelRes]

/-- **C95** (partial).  An array whose type holds the numbers up to the number of cells exactly, with
integers as entries, gives the same result as the array of these integers. -/
theorem C95_exact_partial (hD : ExactTo D N) {sai : Fin N → ℤ} (hsa : ∀ n, D.val (sa n) = some (sai n))
    (b group : Bool) :
    mf2005 D limit fuel b fdir sa group = Seg.mf2005 limit fuel b fdir sai group := by
  have := mf2005_sim (limit := limit) (fuel := fuel) (fdir := fdir) (sa := sa) (sai := sai)
    (P := fun a b => ∀ n, D.val (a n) = some (b n)) (ok := fun s => 1 ≤ s ∧ s ≤ N) (by
      intro a b n s h hs m
      by_cases hmn : m = n
      · subst hmn; rw [update_self, update_self]; exact hD s (by omega) hs.2
      · rw [update_of_ne hmn, update_of_ne hmn]; exact h m) b group
    (by intro n; unfold marks; rw [hsa n]; by_cases h : sai n = 0 <;> simp [h]) hsa
    (fun e he => starts_range he) (fun n s h => nd_range h)
  revert this
  cases mf2005 D limit fuel b fdir sa group with
  | ok x =>
    cases Seg.mf2005 limit fuel b fdir sai group with
    | ok y =>
      rintro ⟨ht, mp, a, b', hp, hx, hy⟩
      have harr : x.sa = y.sa := by
        rw [hx, hy]
        unfold segArray Seg.segArray
        congr 1
        funext acc e n
        simp [hp n]
      obtain ⟨x1, x2, x3, x4⟩ := x
      obtain ⟨y1, y2, y3, y4⟩ := y
      simp only [tables, Prod.mk.injEq] at ht
      obtain ⟨rfl, rfl, rfl⟩ := ht
      dsimp only at harr
      rw [harr]
    | err e => simp [RelRes]
    | hang => simp [RelRes]
  | err e => cases Seg.mf2005 limit fuel b fdir sai group <;> simp [RelRes]
  | hang => cases Seg.mf2005 limit fuel b fdir sai group <;> simp [RelRes]

theorem segArray_same {mp : Dict ℤ ℤ} {a : Fin N → D.W} {m n : Fin N} (h : D.val (a m) = D.val (a n)) :
    segArray D mp a m = segArray D mp a n := by
  unfold segArray
  have key : ∀ (l : List (ℤ × ℤ)) (acc : Fin N → ℤ), acc m = acc n →
      l.foldl (fun acc e n => if D.val (a n) = some e.1 then e.2 else acc n) acc m =
        l.foldl (fun acc e n => if D.val (a n) = some e.1 then e.2 else acc n) acc n := by
    intro l
    induction l with
    | nil => intro acc h; exact h
    | cons e l ih =>
      intro acc hacc
      exact ih _ (by dsimp only; rw [h, hacc])
  exact key mp _ rfl

/-- **C95, refuted** (MODFLOW-2005).  In the array numbered from a Boolean array all stream cells carry the
same number, however many segments there are. -/
theorem C95_bool_segments_refuted {sa : Fin N → Bool} {b group : Bool} {out : Seg.Out N}
    (h : mf2005 bool limit fuel b fdir sa group = .ok out) {m n : Fin N} (hm : sa m = true)
    (hn : sa n = true) : out.sa m = out.sa n := by
  have := mf2005_sim (D := bool) (limit := limit) (fuel := fuel) (fdir := fdir) (sa := sa)
    (sai := marks bool sa) (P := fun a _ => ∀ n, sa n = true → a n = true) (ok := fun s => 1 ≤ s ∧ s ≤ N) (by
      intro a b n s h hs m hm
      by_cases hmn : m = n
      · subst hmn; rw [update_self]; simp only [bool, ne_eq, decide_eq_true_eq]; omega
      · rw [update_of_ne hmn]; exact h m hm) b group (fun _ => Iff.rfl) (fun _ h => h)
    (fun e he => starts_range he) (fun n s h => nd_range h)
  rw [h] at this
  revert this
  cases Seg.mf2005 limit fuel b fdir (marks bool sa) group with
  | ok y =>
    rintro ⟨_, mp, a, _, hp, hx, _⟩
    rw [hx]
    apply segArray_same
    rw [hp m hm, hp n hn]
  | err e => simp [RelRes]
  | hang => simp [RelRes]

/-! ### C95: MODFLOW 6 -/

theorem foldl_update_zipIdx (f : ℕ → D.W) (l : List (Fin N)) : ∀ (k : ℕ) (a : Fin N → D.W), l.Nodup → ∀ n,
    (l.zipIdx k).foldl (fun a p => update a p.1 (f p.2)) a n =
      if n ∈ l then f (k + l.idxOf n) else a n := by
  induction l with
  | nil => intro k a _ n; simp
  | cons x l ih =>
    intro k a hnd n
    rw [List.nodup_cons] at hnd
    rw [List.zipIdx_cons, List.foldl_cons, ih _ _ hnd.2]
    by_cases hx : n = x
    · subst hx
      rw [if_neg hnd.1, update_self, if_pos (by simp), List.idxOf_cons_self, Nat.add_zero]
    · by_cases hl : n ∈ l
      · rw [if_pos hl, if_pos (by simp [hl]), List.idxOf_cons_ne _ (fun h => hx h.symm)]
        congr 1; omega
      · rw [if_neg hl, if_neg (by simp [hx, hl]), update_of_ne hx]

theorem strmNodes_nodup (sa : Fin N → D.W) : (strmNodes D sa).Nodup := (List.nodup_finRange N).filter _

theorem mem_strmNodes {n : Fin N} : n ∈ strmNodes D sa ↔ D.val (sa n) ≠ some 0 := by simp [strmNodes]

theorem numberReaches_eq (sa : Fin N → D.W) (n : Fin N) : numberReaches D sa n =
    if D.val (sa n) ≠ some 0 then D.store (((strmNodes D sa).idxOf n : ℤ) + 1) else sa n := by
  unfold numberReaches
  rw [foldl_update_zipIdx (fun k : ℕ => D.store ((k : ℤ) + 1)) _ 0 _ (strmNodes_nodup sa)]
  by_cases h : D.val (sa n) = some 0
  · rw [if_neg (by rw [mem_strmNodes]; simpa using h), if_neg (by simpa using h)]
  · rw [if_pos (mem_strmNodes.2 h), if_pos h, Nat.zero_add]

/-- the numbers the exact type holds after numbering -/
theorem num_exact (hD : ExactTo D (Reach.nStream (marks D sa))) (n : Fin N) :
    D.val (numberReaches D sa n) = some (Reach.numberReaches (marks D sa) n) := by
  rw [numberReaches_eq, Reach.numberReaches_eq, strmNodes_eq]
  by_cases h : D.val (sa n) = some 0
  · rw [if_neg (by simpa using h), if_neg (by rw [marks_ne]; simpa using h), h]
  · have hm := marks_ne.2 h
    rw [if_pos h, if_pos hm]
    apply hD
    · omega
    · have h1 := List.idxOf_lt_length_of_mem (Reach.mem_strmNodes.2 hm)
      rw [Reach.strmNodes_card] at h1
      unfold Reach.nStream
      omega

theorem renum_sim {mp : Dict ℤ ℤ} {k : ℤ} (hD : ExactTo D k) (hmp : ∀ x y, mp.get? x = some y → 0 ≤ y ∧ y ≤ k) :
    ∀ (l : List (Fin N)) (x : Res (Fin N → D.W)) (y : Res (Fin N → ℤ)),
      RelRes (fun a b => ∀ n, D.val (a n) = some (b n)) x y →
      RelRes (fun a b => ∀ n, D.val (a n) = some (b n)) (l.foldl (renumStep D mp) x)
        (l.foldl (Reach.renumStep mp) y) := by
  intro l
  induction l with
  | nil => intro x y h; exact h
  | cons e l ih =>
    intro x y h
    refine ih _ _ (h.bind fun a b hab => ?_)
    have hc : code D (a e) = b e := by simp [code, hab e]
    rw [hc]
    unfold Dict.getE
    cases hg : mp.get? (b e) with
    | none => exact rfl
    | some v =>
      intro n
      by_cases hn : n = e
      · subst hn; rw [update_self, update_self]; exact hD v (hmp _ _ hg).1 (hmp _ _ hg).2
      · rw [update_of_ne hn, update_of_ne hn]; exact hab n

theorem mapper_vals {order : List ℤ} {x y : ℤ} (h : (Reach.mapper order).get? x = some y) :
    1 ≤ y ∧ y ≤ order.length := by
  unfold Reach.mapper at h
  have key : ∀ (l : List (ℤ × ℕ)) (m : Dict ℤ ℤ), (∀ p ∈ l, p.2 < order.length) →
      (∀ x y, m.get? x = some y → 1 ≤ y ∧ y ≤ order.length) →
      ∀ x y, Dict.get? (l.foldl (fun m p => m.set p.1 ((p.2 : ℤ) + 1)) m) x = some y →
        1 ≤ y ∧ y ≤ order.length := by
    intro l
    induction l with
    | nil => intro m _ h; exact h
    | cons p l ih =>
      intro m hl hm
      refine ih _ (fun q hq => hl q (by simp [hq])) ?_
      intro x y hxy
      rw [Dict.get?_set] at hxy
      split at hxy
      · have := hl p (by simp)
        have := Option.some.inj hxy
        omega
      · exact hm x y hxy
  refine key _ [] ?_ (by simp [Dict.get?]) x y h
  intro p hp
  have := List.mem_zipIdx hp
  omega

/-- **C95** (partial, MODFLOW 6).  If the type holds the numbers up to the number of stream cells exactly,
graph and numbered array are those of the integer array that marks the stream cells. -/
theorem C95_mf6_exact_partial (hd : Resolves fdir d) (hl : Reach.Fits d (marks D sa) limit)
    (hD : ExactTo D (Reach.nStream (marks D sa))) :
    ∃ a b g, mf6 D limit fdir sa = .ok (a, g) ∧ Reach.mf6 limit fdir (marks D sa) = .ok (b, g) ∧
      ∀ n, D.val (a n) = some (b n) := by
  have hnum : (fun n => code D (numberReaches D sa n)) = Reach.numberReaches (marks D sa) := by
    funext n; simp [code, num_exact hD n]
  obtain ⟨b, g, hb, _⟩ := Reach.C49_reach_numbers (sa := marks D sa) hd hl
  have hb0 := hb
  unfold Reach.mf6 at hb
  dsimp only at hb
  obtain ⟨topo, h1, hb⟩ := Res.bind_eq_ok.1 hb
  obtain ⟨order, h2, hb⟩ := Res.bind_eq_ok.1 hb
  obtain ⟨g', h3, hb⟩ := Res.bind_eq_ok.1 hb
  obtain ⟨b', h4, hb⟩ := Res.map_eq_ok.1 hb
  simp only [Prod.mk.injEq] at hb
  obtain ⟨rfl, rfl⟩ := hb
  have hlen : (order.length : ℤ) ≤ Reach.nStream (marks D sa) := by
    rw [Reach.reachTopo_ok hd] at h1
    obtain rfl := Res.ok.inj h1
    unfold Reach.nStream
    rw [← Reach.strmNodes_card]
    obtain ⟨S, e, s1, s2, _⟩ := Topo.sort_ok (topo := Reach.topo0 d (marks D sa)) Reach.topo0_refs
      (limit := limit) (Reach.topo0_short hl)
    rw [h2] at e
    obtain rfl := Res.ok.inj e
    have hsub : order ⊆ (Reach.strmNodes (marks D sa)).map (Reach.numberReaches (marks D sa)) := by
      intro x hx
      rw [← Reach.topo0_keys (d := d)]
      exact ((s2 x).1 hx).2
    have := (List.subperm_of_subset s1 hsub).length_le
    rw [List.length_map] at this
    exact_mod_cast this
  have hsim := renum_sim (D := D) hD (mp := Reach.mapper order) (fun x y h => by
      have := mapper_vals h; omega) (Reach.strmNodes (marks D sa)) (.ok (numberReaches D sa))
    (.ok (Reach.numberReaches (marks D sa))) (fun n => num_exact hD n)
  rw [h4] at hsim
  cases hr : (Reach.strmNodes (marks D sa)).foldl (renumStep D (Reach.mapper order))
      (.ok (numberReaches D sa)) with
  | ok a =>
    rw [hr] at hsim
    refine ⟨a, b', g', ?_, hb0, hsim⟩
    unfold mf6
    dsimp only
    rw [hnum, strmNodes_eq, h1]
    simp only [Res.bind_ok, h2, h3, hr, Res.map_ok]
  | err e => rw [hr] at hsim; exact hsim.elim
  | hang => rw [hr] at hsim; exact hsim.elim

theorem connStep_const (hd : Resolves fdir d) {num : Fin N → ℤ} : ∀ (l : List (Fin N)) (v : ℤ),
    (∀ n ∈ l, num n = 1) → ∃ w, l.foldl (Reach.connStep fdir num) (.ok [(1, v)]) = .ok [(1, w)] ∧
      ((l = [] ∧ w = v) ∨ ∃ h : l ≠ [], w = num (d (l.getLast h))) := by
  intro l
  induction l with
  | nil => intro v _; exact ⟨v, rfl, .inl ⟨rfl, rfl⟩⟩
  | cons n l ih =>
    intro v hl
    obtain ⟨w, h1, h2⟩ := ih (num (d n)) (fun m hm => hl m (by simp [hm]))
    refine ⟨w, ?_, .inr ⟨by simp, ?_⟩⟩
    · rw [List.foldl_cons, ← h1]
      congr 1
      unfold Reach.connStep
      have := hd.pyIndex n
      simp only [Res.bind_ok, this, hl n (by simp)]
      rfl
    · rcases h2 with ⟨rfl, rfl⟩ | ⟨h, rfl⟩
      · rfl
      · rw [List.getLast_cons h]

theorem bool_code (b : Bool) : code bool b = if b = true then 1 else 0 := by cases b <;> rfl

/-- **C95, refuted** (MODFLOW 6).  From a Boolean array with stream cells the connectivity has a single
reach, whatever the network; the array is left as it is. -/
theorem C95_bool_reaches_refuted (hd : Resolves fdir d) {sa : Fin N → Bool} (hs : ∃ n, sa n = true)
    (hl : 2 ≤ limit) : ∃ t, mf6 bool limit fdir sa = .ok (sa, [(1, t)]) ∧ (t = 0 ∨ t = 1) := by
  have hmem : ∀ n, n ∈ strmNodes bool sa ↔ sa n = true := by
    intro n; rw [mem_strmNodes]; cases sa n <;> simp [bool]
  have hnum : numberReaches bool sa = sa := by
    funext n
    rw [numberReaches_eq]
    by_cases h : sa n = true
    · rw [h, if_pos (by simp [bool])]
      simp only [bool, ne_eq, decide_eq_true_eq]
      omega
    · rw [if_neg]; simp [bool, h]
  have htopo : ∃ w, Reach.reachTopo fdir (fun n => code bool (sa n)) (strmNodes bool sa) = .ok [(1, w)] ∧
      (w = 0 ∨ w = 1) := by
    obtain ⟨n0, hn0⟩ := hs
    have hne : strmNodes bool sa ≠ [] := List.ne_nil_of_mem ((hmem n0).2 hn0)
    have hone : ∀ n ∈ strmNodes bool sa, code bool (sa n) = 1 := by
      intro n hn; rw [bool_code, if_pos ((hmem n).1 hn)]
    unfold Reach.reachTopo
    obtain ⟨n, l, hnl⟩ := List.exists_cons_of_ne_nil hne
    rw [hnl] at hone ⊢
    obtain ⟨w, h1, h2⟩ := connStep_const (num := fun n => code bool (sa n)) hd l (code bool (sa (d n)))
      (fun m hm => hone m (by simp [hm]))
    refine ⟨w, ?_, ?_⟩
    · rw [List.foldl_cons, ← h1]
      congr 1
      unfold Reach.connStep
      have := hd.pyIndex n
      simp only [Res.bind_ok, this, hone n (by simp)]
      rfl
    · rcases h2 with ⟨_, rfl⟩ | ⟨h, rfl⟩
      · rw [bool_code]; split <;> simp
      · rw [bool_code]; split <;> simp
  obtain ⟨w, hw, hw01⟩ := htopo
  have hsort : Topo.sort limit [(1, w)] = .ok [1] := by
    obtain ⟨k, rfl⟩ : ∃ k, limit = k + 2 := ⟨limit - 2, by omega⟩
    rcases hw01 with rfl | rfl <;> rfl
  have hmap : Reach.mapper [1] = [(1, 1)] := rfl
  have hremap : (Reach.mapper [1]).foldl (Reach.remapStep [(1, w)] (Reach.mapper [1])) (.ok []) =
      .ok [(1, w)] := by
    rcases hw01 with rfl | rfl <;> rfl
  have hren : ∀ (l : List (Fin N)), (∀ n ∈ l, sa n = true) →
      l.foldl (renumStep bool (Reach.mapper [1])) (.ok sa) = .ok sa := by
    intro l
    induction l with
    | nil => intro _; rfl
    | cons n l ih =>
      intro hl
      rw [List.foldl_cons]
      have : renumStep bool (Reach.mapper [1]) (.ok sa) n = .ok sa := by
        unfold renumStep
        rw [Res.bind_ok, bool_code, if_pos (hl n (by simp))]
        show Res.ok (update sa n (bool.store 1)) = Res.ok sa
        congr 1
        rw [update_eq_self_iff, hl n (by simp)]
        rfl
      rw [this]
      exact ih (fun m hm => hl m (by simp [hm]))
  refine ⟨w, ?_, hw01⟩
  unfold mf6
  dsimp only
  rw [hnum, hw]
  simp only [Res.bind_ok, hsort, hremap]
  rw [hren _ (fun n hn => (hmem n).1 hn)]
  rfl

/-! ### C96 -/

/-- **C96, refuted.**  In the connectivity of an array of floats every NaN cell is a reach of its own: the
reaches number the cells that are NaN or not 0. -/
theorem C96_nan_refuted (hd : Resolves fdir d) {sa : Fin N → Option ℚ}
    (hl : Reach.Fits d (marks float sa) limit) :
    ∃ a g, mf6 float limit fdir sa = .ok (a, g) ∧
      g.keys = (List.range (Reach.nStream (marks float sa))).map (fun i : ℕ => (i : ℤ) + 1) ∧
      ∀ n, sa n = none → ∃ r : ℤ, 1 ≤ r ∧ r ≤ Reach.nStream (marks float sa) ∧ a n = some (r : ℚ) ∧
        r ∈ g.keys := by
  obtain ⟨a, b, g, h1, h2, h3⟩ := C95_mf6_exact_partial (D := float) (sa := sa) hd hl (exact_float _)
  obtain ⟨b', g', e, k0, k1, k2, k3, k4, k5⟩ := Reach.C49_reach_numbers (sa := marks float sa) hd hl
  rw [h2] at e
  simp only [Res.ok.injEq, Prod.mk.injEq] at e
  obtain ⟨rfl, rfl⟩ := e
  refine ⟨a, g, h1, k4, fun n hn => ?_⟩
  have hm : marks float sa n ≠ 0 := by rw [marks_ne, hn]; simp [float]
  refine ⟨b n, (k1 n hm).1, (k1 n hm).2, ?_, Dict.mem_keys_iff.2 ⟨_, k5 n hm⟩⟩
  have h4 := h3 n
  simp only [float] at h4
  cases ha : a n with
  | none => rw [ha] at h4; simp at h4
  | some q =>
    rw [ha] at h4
    simp only [Option.bind_some] at h4
    split at h4
    · rename_i hden
      congr 1
      rw [← Option.some.inj h4, Rat.coe_int_num_of_den_eq_one hden]
    · cases h4

/-- **C96** (partial).  `create_stream_vectors` sets NaN to 0 first: there no NaN cell is a stream cell and
the others are not changed. -/
theorem C96_vectors_partial (sa : Fin N → Option ℚ) (n : Fin N) :
    marks float (dropNan sa) n = if sa n = none then 0 else marks float sa n := by
  unfold marks dropNan
  cases sa n with
  | none => simp [float]
  | some q => simp

/-! ### Concrete cases -/

/-- 0 → 2, 1 → 2, 2 → 3 → 4 -/
def exDir : Fin 5 → ℤ := ![2, 2, 3, 4, 4]

example : (mf6 bool 9 exDir ![true, true, true, true, false]).map (fun r => r.2) = .ok [(1, 0)] := by
  decide +kernel

example : (mf6 int 9 exDir ![1, 1, 1, 1, 0]).map (fun r => r.2) = .ok [(1, 3), (2, 3), (3, 4), (4, 0)] := by
  decide +kernel

/-- three NaN cells become reaches -/
example : (mf6 float 9 exDir ![none, none, some 0, some 1, none]).map (fun r => r.2) =
    .ok [(1, 2), (2, 2), (3, 0), (4, 0)] := by decide +kernel

/-- three segments, but one number -/
example : (mf2005 bool 9 9 false exDir ![true, true, true, true, false] true).map
    (fun o => (List.ofFn o.sa, o.sg.keys)) = .ok ([2, 2, 2, 2, 0], [2, 1, 3]) := by decide +kernel

example : (mf2005 int 9 9 false exDir ![1, 1, 1, 1, 0] true).map
    (fun o => (List.ofFn o.sa, o.sg.keys)) = .ok ([2, 1, 3, 3, 0], [2, 1, 3]) := by decide +kernel

end Dany.Dtype
