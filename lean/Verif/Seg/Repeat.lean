import Verif.Seg.Ungroup
import Verif.Delin.Props

/-!
# Property C158: calling `get_stream_connectivity` again

After the call the stored stream array holds segment numbers instead of ones; the next call starts from
those.
-/

namespace Dany.Seg

open Relation Reach Function

variable {N : ℕ} {fdir sa sa' : Fin N → ℤ} {limit fuel : ℕ} {b : Bool} {out : Out N}

/-- two outcomes of the same kind, with values related by `R` -/
def ResRel {α : Type*} (R : α → α → Prop) : Res α → Res α → Prop
  | .ok x, .ok y => R x y
  | .err e, .err e' => e = e'
  | .hang, .hang => True
  | _, _ => False

theorem ResRel.bind {α β : Type*} {R : α → α → Prop} {Q : β → β → Prop} {x y : Res α} {f g : α → Res β}
    (h : ResRel R x y) (hf : ∀ a a', R a a' → ResRel Q (f a) (g a')) : ResRel Q (x.bind f) (y.bind g) := by
  cases x <;> cases y <;> first | exact h.elim | exact hf _ _ h | exact h

theorem ResRel.refl {α : Type*} {R : α → α → Prop} (hR : ∀ a, R a a) (x : Res α) : ResRel R x x := by
  cases x <;> first | exact hR _ | exact rfl | trivial

theorem ResRel.foldl {α β : Type*} {R : α → α → Prop} {f g : Res α → β → Res α}
    (h : ∀ x y e, ResRel R x y → ResRel R (f x e) (g y e)) : ∀ (l : List β) (x y : Res α), ResRel R x y →
    ResRel R (l.foldl f x) (l.foldl g y)
  | [], _, _, h0 => h0
  | e :: l, x, y, h0 => ResRel.foldl h l _ _ (h x y e h0)

/-- the same tables, and arrays that agree in the listed cells and in those of `Z` -/
def Agree (Z : Fin N → Prop) (s t : WState N) : Prop :=
  s.nsr = t.nsr ∧ s.sg = t.sg ∧ ∀ n, (Z n ∨ n ∈ s.nsr.map Prod.fst) → s.sa n = t.sa n

theorem Agree.step {Z : Fin N → Prop} {s t : WState N} (h : Agree Z s t) (node : Fin N) (v r : ℤ)
    (sg : Dict ℤ ℤ → Dict ℤ ℤ) : Agree Z ⟨s.nsr ++ [(node, v, r)], update s.sa node v, sg s.sg⟩
      ⟨t.nsr ++ [(node, v, r)], update t.sa node v, sg t.sg⟩ := by
  obtain ⟨h1, h2, h3⟩ := h
  refine ⟨by rw [h1], by rw [h2], ?_⟩
  intro n hn
  dsimp only at hn ⊢
  by_cases e : n = node
  · subst e; rw [update_self, update_self]
  · rw [update_of_ne e, update_of_ne e]
    apply h3
    rcases hn with hn | hn
    · exact .inl hn
    · simp only [List.map_append, List.map_cons, List.map_nil, List.mem_append, List.mem_singleton, e,
        or_false] at hn
      exact .inr hn

theorem walk_agree {Z : Fin N → Prop} (g : Dict (Fin N) (Option (Fin N))) (starts : Dict (Fin N) ℤ) (seg : ℤ) :
    ∀ (fuel : ℕ) (node : Fin N) (rch : ℤ) (s t : WState N), Agree Z s t →
      ResRel (Agree Z) (walk g starts seg fuel node rch s) (walk g starts seg fuel node rch t)
  | 0, _, _, _, _, _ => trivial
  | fuel + 1, node, rch, s, t, h => by
    unfold walk
    refine ResRel.bind (R := Eq) (ResRel.refl (fun _ => rfl) _) ?_
    rintro dn _ rfl
    cases dn with
    | none => exact h.step node seg rch (fun d => d.set seg 0)
    | some m =>
      dsimp only
      cases starts.get? m with
      | some x => exact h.step node seg rch (fun d => d.set seg x)
      | none => exact walk_agree g starts seg fuel m (rch + 1) _ _ (h.step node seg rch id)

theorem grouped_agree {Z : Fin N → Prop} (fuel : ℕ) (g : Dict (Fin N) (Option (Fin N)))
    (h : ∀ n, Z n → sa n = sa' n) : ResRel (Agree Z) (grouped fuel g sa) (grouped fuel g sa') := by
  unfold grouped
  refine ResRel.foldl ?_ _ _ _ ⟨rfl, rfl, fun n hn => h n (by simpa using hn)⟩
  intro x y e hxy
  exact ResRel.bind hxy fun s t hst => walk_agree _ _ _ _ _ _ _ _ hst

theorem ungrouped_agree {Z : Fin N → Prop} (g : Dict (Fin N) (Option (Fin N)))
    (h : ∀ n, Z n → sa n = sa' n) : ResRel (Agree Z) (ungrouped g sa) (ungrouped g sa') := by
  unfold ungrouped
  refine ResRel.foldl ?_ _ _ _ ⟨rfl, rfl, fun n hn => h n (by simpa using hn)⟩
  intro x y e hxy
  refine ResRel.bind hxy fun s t hst => ?_
  refine ResRel.bind (R := Eq) (ResRel.refl (fun _ => rfl) _) ?_
  rintro up _ rfl
  obtain ⟨a, dn⟩ := e
  cases dn with
  | none => exact hst.step a up 1 (fun d => d.set up 0)
  | some m =>
    refine ResRel.bind (R := Eq) (ResRel.refl (fun _ => rfl) _) ?_
    rintro sd _ rfl
    dsimp only
    split
    · exact hst.step a up 1 (fun d => d.set up 0)
    · obtain ⟨h1, h2, h3⟩ := hst.step a up 1 (fun d => d.set up sd)
      refine ⟨h1, h2, fun n hn => ?_⟩
      dsimp only
      by_cases e : n = m
      · subst e; rw [update_self, update_self]
      · rw [update_of_ne e, update_of_ne e]; exact h3 n hn

/-- the same tables, and arrays that agree in the listed cells and in those of `Z` -/
def OutAgree (Z : Fin N → Prop) (s t : Out N) : Prop :=
  s.nsr = t.nsr ∧ s.sg = t.sg ∧ s.graph = t.graph ∧ ∀ n, (Z n ∨ n ∈ s.nsr.map Prod.fst) → s.sa n = t.sa n

theorem remapRows_fst {mp : Dict ℤ ℤ} : ∀ {l l' : List (Fin N × ℤ × ℤ)}, remapRows mp l = .ok l' →
    l'.map Prod.fst = l.map Prod.fst
  | [], l', h => by cases h; rfl
  | r :: l, l', h => by
    unfold remapRows at h
    obtain ⟨s, _, h⟩ := Res.bind_eq_ok.1 h
    obtain ⟨l'', h'', rfl⟩ := Res.map_eq_ok.1 h
    simp [remapRows_fst h'']

theorem finish_agree {Z : Fin N → Prop} (limit : ℕ) (b : Bool) (g : Dict (Fin N) (Option (Fin N)))
    {s t : WState N} (h : Agree Z s t) : ResRel (OutAgree Z) (finish limit b g s) (finish limit b g t) := by
  obtain ⟨nsr, sa, sg⟩ := s
  obtain ⟨nsr', sa', sg'⟩ := t
  obtain ⟨h1, h2, h3⟩ := h
  dsimp only at h1 h2 h3
  subst h1 h2
  unfold finish
  refine ResRel.bind (R := Eq) (ResRel.refl (fun _ => rfl) _) ?_
  rintro order _ rfl
  refine ResRel.bind (R := fun x y => x = y ∧ remapRows (segMapper order) nsr = .ok x) ?_ ?_
  · dsimp only
    cases remapRows (segMapper order) nsr <;> first | exact ⟨rfl, rfl⟩ | exact rfl | trivial
  · rintro rows _ ⟨rfl, hr⟩
    refine ResRel.bind (R := Eq) (ResRel.refl (fun _ => rfl) _) ?_
    rintro sg' _ rfl
    refine ResRel.bind (R := Eq) (ResRel.refl (fun _ => rfl) _) ?_
    rintro _ _ rfl
    refine ⟨rfl, rfl, rfl, fun n hn => ?_⟩
    dsimp only at hn ⊢
    rw [remapRows_fst hr] at hn
    have e := h3 n hn
    unfold segArray
    generalize (segMapper order : List (ℤ × ℤ)) = mp
    have : ∀ (l : List (ℤ × ℤ)) (f f' : Fin N → ℤ), f n = f' n →
        l.foldl (fun a e n => if sa n = e.1 then e.2 else a n) f n =
          l.foldl (fun a e n => if sa' n = e.1 then e.2 else a n) f' n := by
      intro l
      induction l with
      | nil => intro f f' h; exact h
      | cons x l ih => intro f f' h; exact ih _ _ (by dsimp only; rw [e, h])
    exact this mp _ _ rfl

/-- **C158, the values of the array do not matter.**  Arrays with the same stream cells give the same tables, or the
same exception. -/
theorem C158_values (h : ∀ n, sa n = 0 ↔ sa' n = 0) (limit fuel : ℕ) (b g : Bool) :
    ResRel (OutAgree fun n => sa n = 0) (mf2005 limit fuel b fdir sa g) (mf2005 limit fuel b fdir sa' g) := by
  have hz : ∀ n, sa n = 0 → sa n = sa' n := fun n hn => by rw [hn, (h n).1 hn]
  have hs : strmNodes sa = strmNodes sa' := by
    unfold strmNodes
    apply List.filter_congr
    intro n _
    simp only [decide_eq_decide, ne_eq, h n]
  have hg : cellGraph fdir sa = cellGraph fdir sa' := by unfold cellGraph; rw [hs]
  unfold mf2005
  rw [hg]
  refine ResRel.bind (R := Agree fun n => sa n = 0) ?_ fun s t hst => finish_agree _ _ _ hst
  cases g
  · exact ungrouped_agree _ hz
  · exact grouped_agree _ _ hz

theorem agree_eq {α : Type*} {x y : Res α} {R : α → α → Prop} (h : ResRel R x y)
    (he : ∀ a b, x = .ok a → R a b → a = b) : x = y := by
  cases x <;> cases y <;> first | exact h.elim | (have := he _ _ rfl h; subst this; rfl) | (cases h; rfl)

/-- the ungrouped call lists every stream cell -/
theorem ungrouped_lists (hout : mf2005 limit fuel b fdir sa false = .ok out) :
    (∀ n, n ∈ out.nsr.map Prod.fst ↔ sa n ≠ 0) ∧ ∀ n, sa n = 0 ↔ out.sa n = 0 := by
  obtain ⟨o, h1, _, h3, h4, h5, _⟩ := C59_ungrouped (fdir := fdir) (sa := sa) (fuel := fuel)
    (limit := max limit (nStream sa + 1)) (cellsFit_of_count (le_max_right _ _))
  have ho : out = o := by
    rcases C59_limit (fdir := fdir) (sa := sa) (fuel := fuel) (b := b)
      (le_max_left limit (nStream sa + 1)) false with h | h
    · rw [h] at hout; cases hout
    · rw [h] at hout
      cases b with
      | false => rw [h1] at hout; exact (Res.ok.inj hout).symm
      | true =>
        obtain ⟨st, e1, e2⟩ := Res.bind_eq_ok.1 h1
        obtain ⟨st', f1, f2⟩ := Res.bind_eq_ok.1 hout
        rw [e1] at f1
        cases f1
        unfold finish at e2 f2
        obtain ⟨or, a1, e2⟩ := Res.bind_eq_ok.1 e2
        obtain ⟨or', b1, f2⟩ := Res.bind_eq_ok.1 f2
        rw [a1] at b1; cases b1
        obtain ⟨ro, a2, e2⟩ := Res.bind_eq_ok.1 e2
        obtain ⟨ro', b2, f2⟩ := Res.bind_eq_ok.1 f2
        rw [a2] at b2; cases b2
        obtain ⟨sg, a3, e2⟩ := Res.bind_eq_ok.1 e2
        obtain ⟨sg', b3, f2⟩ := Res.bind_eq_ok.1 f2
        rw [a3] at b3; cases b3
        obtain ⟨_, _, e2⟩ := Res.bind_eq_ok.1 e2
        obtain ⟨_, _, f2⟩ := Res.bind_eq_ok.1 f2
        exact (Res.ok.inj f2).symm.trans (Res.ok.inj e2)
  subst ho
  refine ⟨fun n => ⟨fun h => ?_, fun h => ?_⟩, fun n => ⟨h4 n, fun h => ?_⟩⟩
  · obtain ⟨⟨m, s, r⟩, hm, rfl⟩ := List.mem_map.1 h
    exact ((h3 m s r).1 hm).1
  · exact List.mem_map.2 ⟨(n, _, _), (h3 n _ _).2 ⟨h, rfl, rfl⟩, rfl⟩
  · by_contra hn
    have := (h5 n hn).1
    omega

/-- the grouped call lists every stream cell downstream of a headwater -/
theorem grouped_lists (hf : N ≤ fuel)
    (hhead : ∀ n, sa n ≠ 0 → ∃ h, Headwater fdir sa h ∧ ReflTransGen (Feeds fdir sa) h n)
    (hout : mf2005 limit fuel b fdir sa true = .ok out) :
    (∀ n, n ∈ out.nsr.map Prod.fst ↔ sa n ≠ 0) ∧ ∀ n, sa n = 0 ↔ out.sa n = 0 := by
  obtain ⟨h1, h2, h3, h4, _⟩ := C56_rows hf hout
  have hl : ∀ n, n ∈ out.nsr.map Prod.fst ↔ sa n ≠ 0 := by
    intro n
    constructor
    · intro h
      obtain ⟨⟨m, s, r⟩, hm, rfl⟩ := List.mem_map.1 h
      exact (h3 m s r hm).1
    · intro h
      obtain ⟨a, ha, hr⟩ := hhead n h
      obtain ⟨s, r, hm⟩ := (h2 n).2 ⟨a, .inl ha, hr⟩
      exact List.mem_map.2 ⟨_, hm, rfl⟩
  refine ⟨hl, fun n => ⟨h4 n, fun h => ?_⟩⟩
  by_contra hn
  obtain ⟨⟨m, s, r⟩, hm, rfl⟩ := List.mem_map.1 ((hl n).2 hn)
  obtain ⟨ss, sn, g1, g2, g3, _, _, g6, _⟩ := grouped_out hf hout
  rw [g6] at hm
  obtain ⟨a, ha, hs, _⟩ := (mem_rows g2).1 hm
  have e := (h3 m s r (by rw [g6]; exact hm)).2.1
  have := (g3 a ha).1
  dsimp only at h
  omega

/-- **C158, the part that holds.**  If every stream cell lies downstream of a headwater, a call with either value of
`group_segments` leaves an array from which the next call, with either value, does exactly what it would have done
on the original array: same array, same graph, same segments, same table, or the same exception. -/
theorem C158_repeat_partial (hf : N ≤ fuel)
    (hhead : ∀ n, sa n ≠ 0 → ∃ h, Headwater fdir sa h ∧ ReflTransGen (Feeds fdir sa) h n) {g : Bool}
    (hout : mf2005 limit fuel b fdir sa g = .ok out) (limit' fuel' : ℕ) (hf' : N ≤ fuel') (b' g' : Bool) :
    mf2005 limit' fuel' b' fdir out.sa g' = mf2005 limit' fuel' b' fdir sa g' := by
  have hz : ∀ n, sa n = 0 ↔ out.sa n = 0 := by
    cases g
    · exact (ungrouped_lists hout).2
    · exact (grouped_lists hf hhead hout).2
  symm
  refine agree_eq (C158_values hz limit' fuel' b' g') ?_
  rintro ⟨sa1, gr, sg, nsr⟩ ⟨sa2, gr', sg', nsr'⟩ hx ⟨h1, h2, h3, h4⟩
  have hl : ∀ n, n ∈ nsr.map Prod.fst ↔ sa n ≠ 0 := by
    cases g'
    · exact (ungrouped_lists hx).1
    · exact (grouped_lists hf' hhead hx).1
  dsimp only at h1 h2 h3 h4
  subst h1 h2 h3
  congr 1
  funext n
  apply h4
  by_cases hn : sa n = 0
  · exact .inl hn
  · exact .inr ((hl n).2 hn)

/-- **C158.**  With `group_segments=False` both times (as in `PrmsStreams`) no hypothesis is needed. -/
theorem C158_single (hout : mf2005 limit fuel b fdir sa false = .ok out) (limit' fuel' : ℕ) (b' : Bool) :
    mf2005 limit' fuel' b' fdir out.sa false = mf2005 limit' fuel' b' fdir sa false := by
  symm
  refine agree_eq (C158_values (ungrouped_lists hout).2 limit' fuel' b' false) ?_
  rintro ⟨sa1, gr, sg, nsr⟩ ⟨sa2, gr', sg', nsr'⟩ hx ⟨h1, h2, h3, h4⟩
  have hl := (ungrouped_lists hx).1
  dsimp only at h1 h2 h3 h4 hl
  subst h1 h2 h3
  congr 1
  funext n
  apply h4
  by_cases hn : sa n = 0
  · exact .inl hn
  · exact .inr ((hl n).2 hn)

/-- **C158, refuted.**  A stream without headwater or confluence, for example a single outlet cell that flows
to itself, is lost: the grouped call returns empty tables and stores an array without any stream cell. -/
theorem C158_refuted (hf : N ≤ fuel) (hno : ∀ n, ¬ Start fdir sa n)
    (hout : mf2005 limit fuel b fdir sa true = .ok out) : out.sa = (fun _ => 0) ∧ out.sg = [] ∧ out.nsr = [] := by
  have h0 : nSeg fdir sa = 0 := by
    classical
    unfold nSeg
    rw [Finset.card_eq_zero, Finset.filter_eq_empty_iff]
    exact fun n _ => hno n
  obtain ⟨ss, sn, g1, g2, g3, _, g5, g6, _⟩ := grouped_out hf hout
  have hs : ss = [] := List.eq_nil_iff_forall_not_mem.2 fun n hn => hno n ((g2 n).1 hn)
  refine ⟨?_, by rw [g5, hs]; rfl, by rw [g6, hs]; rfl⟩
  funext n
  have := grouped_bound hf hout n
  rw [h0] at this
  exact le_antisymm (by exact_mod_cast this.2) this.1

/-- Such a stream is what a large threshold delineates: 2 → 1 → 0 → 0, threshold 3, gives the outlet only.  The grouped
call erases it; the ungrouped call numbers it, and finds nothing after the grouped one. -/
theorem C158_refuted_concrete :
    ((Acc.flowAccumulation 9 ![0, 0, 1] (fun _ : Fin 3 => (1 : ℚ)) false).bind fun f =>
      (Delin.delineate (fun n => some (f n)) ⟨![0, 0, 1], none, none⟩ (.number 3) none).map
        fun r => List.ofFn r.2) = .ok [1, 0, 0] ∧
    (mf2005 9 3 false ![0, 0, 1] (![1, 0, 0] : Fin 3 → ℤ) false).map Out.show = .ok ([1, 0, 0], [(1, 0)], [(0, 1, 1)]) ∧
    ((mf2005 9 3 false ![0, 0, 1] (![1, 0, 0] : Fin 3 → ℤ) true).bind fun o =>
      mf2005 9 3 false ![0, 0, 1] o.sa false).map Out.show = .ok ([0, 0, 0], [], []) :=
  ⟨by decide +kernel, by decide +kernel, by decide +kernel⟩

/-- non-vacuity: the network of C56 (which has a headwater above every cell, see there), grouped and then
ungrouped -/
example : ((mf2005 10 5 false exFdir exSa true).bind fun o => mf2005 10 5 false exFdir o.sa false).map Out.show =
    .ok ([2, 1, 3, 4, 0], [(2, 3), (1, 3), (3, 4), (4, 0)],
      [(0, 2, 1), (1, 1, 1), (2, 3, 1), (3, 4, 1)]) := by decide +kernel

/-- the hypothesis of `C158_refuted` in the concrete case -/
example : ∀ n, ¬ Start (![0, 0, 1] : Fin 3 → ℤ) ![1, 0, 0] n := by
  rintro n (⟨h1, h2⟩ | ⟨a, c, hne, ⟨h1, h2, _⟩, h3, _⟩)
  · have : n = 0 := by clear h2; revert h1; revert n; decide
    subst this
    exact h2 0 ⟨by decide, by decide, by decide⟩
  · have e : ∀ x : Fin 3, (![1, 0, 0] : Fin 3 → ℤ) x ≠ 0 → x = 0 := by decide
    exact hne ((e a h1).trans (e c h3).symm)

end Dany.Seg
