import Verif.Seg.Props
import Mathlib.Tactic.FinCases

/-!
# C59, C60: one segment per cell; unstructured grids
-/

namespace Dany.Seg

open Function Reach Topo Relation

variable {N : ℕ} {fdir sa : Fin N → ℤ} {limit fuel : ℕ} {b : Bool} {out : Out N}

theorem ndFold_ok : ∀ (l : List (Fin N × Option (Fin N))) (st : Dict (Fin N) ℤ × ℤ), Numbered st →
    Numbered (l.foldl ndStep st) ∧
      ∀ n, n ∈ (l.foldl ndStep st).1.keys ↔ n ∈ st.1.keys ∨ ∃ e ∈ l, n = e.1 ∨ e.2 = some n := by
  intro l
  induction l with
  | nil => intro st h; exact ⟨h, by simp⟩
  | cons e l ih =>
    intro st h
    obtain ⟨a, o⟩ := e
    -- first half of the step
    have h1 : Numbered (if a ∉ st.1.keys then (st.1.set a st.2, st.2 + 1) else st) ∧
        ∀ n, n ∈ (if a ∉ st.1.keys then (st.1.set a st.2, st.2 + 1) else st).1.keys ↔
          n ∈ st.1.keys ∨ n = a := by
      split
      · rename_i ha
        exact ⟨h.add ha, fun n => by rw [Dict.mem_keys_set]⟩
      · rename_i ha
        rw [not_not] at ha
        refine ⟨h, fun n => ⟨.inl, ?_⟩⟩
        rintro (hn | rfl)
        · exact hn
        · exact ha
    have h2 : Numbered (ndStep st (a, o)) ∧ ∀ n, n ∈ (ndStep st (a, o)).1.keys ↔
        n ∈ st.1.keys ∨ n = a ∨ o = some n := by
      unfold ndStep
      dsimp only
      generalize (if a ∉ st.1.keys then (st.1.set a st.2, st.2 + 1) else st) = st1 at h1 ⊢
      obtain ⟨hn1, hk1⟩ := h1
      cases o with
      | none => exact ⟨hn1, fun n => by simp [hk1]⟩
      | some m =>
        dsimp only
        split
        · rename_i hm
          refine ⟨hn1.add hm, fun n => ?_⟩
          rw [Dict.mem_keys_set, hk1, Option.some.injEq, or_assoc, eq_comm (a := m)]
        · rename_i hm
          rw [not_not] at hm
          refine ⟨hn1, fun n => ?_⟩
          rw [hk1, Option.some.injEq, ← or_assoc]
          constructor
          · exact .inl
          · rintro (h | rfl)
            · exact h
            · exact (hk1 _).1 hm
    obtain ⟨h3, h4⟩ := ih _ h2.1
    rw [List.foldl_cons]
    refine ⟨h3, fun n => ?_⟩
    rw [h4, h2.2]
    simp only [List.mem_cons, exists_eq_or_imp]
    rw [or_assoc]

/-- the number of the segment of a cell -/
def ndNum (nd : Dict (Fin N) ℤ) (n : Fin N) : ℤ := (nd.get? n).getD 0

/-- outflow of a cell that is its own segment -/
def ndOut (fdir sa : Fin N → ℤ) (nd : Dict (Fin N) ℤ) (n : Fin N) : ℤ :=
  match dn fdir sa n with
  | none => 0
  | some m => if ndNum nd m = ndNum nd n then 0 else ndNum nd m

theorem ungroupFold_ok {nd : Dict (Fin N) ℤ} (hk : ∀ n, n ∈ nd.keys ↔ sa n ≠ 0)
    (hinj : ∀ m n, sa m ≠ 0 → sa n ≠ 0 → ndNum nd m = ndNum nd n → m = n) :
    ∀ (l : List (Fin N)) (st : WState N), (∀ n ∈ l, sa n ≠ 0) → l.Nodup →
      (∀ n ∈ l, ndNum nd n ∉ st.sg.keys) →
      ∃ sa', (l.map (fun n => (n, dn fdir sa n))).foldl (ungroupStep nd) (.ok st) = .ok
        ⟨st.nsr ++ l.map (fun n => (n, ndNum nd n, 1)), sa',
          st.sg ++ l.map (fun n => (ndNum nd n, ndOut fdir sa nd n))⟩ ∧
        (∀ n, sa n = 0 → sa' n = st.sa n) ∧
        (∀ n, sa n ≠ 0 → (n ∈ l ∨ st.sa n = ndNum nd n) → sa' n = ndNum nd n) := by
  intro l
  induction l with
  | nil => intro st _ _ _; exact ⟨st.sa, by simp, by simp, by simp⟩
  | cons a l ih =>
    intro st hl hnd hfr
    have ha : sa a ≠ 0 := hl a (by simp)
    have hget : ∀ n, sa n ≠ 0 → nd.getE n = .ok (ndNum nd n) := by
      intro n hn
      obtain ⟨v, hv⟩ := Dict.mem_keys_iff.1 ((hk n).2 hn)
      simp [Dict.getE, ndNum, hv]
    have hstep : ∃ sa1, ungroupStep nd (.ok st) (a, dn fdir sa a) = .ok
        ⟨st.nsr ++ [(a, ndNum nd a, 1)], sa1, st.sg ++ [(ndNum nd a, ndOut fdir sa nd a)]⟩ ∧
        (∀ n, sa n = 0 → sa1 n = st.sa n) ∧
        (∀ n, sa n ≠ 0 → (n = a ∨ st.sa n = ndNum nd n) → sa1 n = ndNum nd n) := by
      have hup : ∀ n, sa n ≠ 0 → (n = a ∨ st.sa n = ndNum nd n) →
          update st.sa a (ndNum nd a) n = ndNum nd n := by
        intro n _ h
        by_cases hna : n = a
        · subst hna; simp
        · rw [update_of_ne hna]; exact h.resolve_left hna
      have hup0 : ∀ n, sa n = 0 → update st.sa a (ndNum nd a) n = st.sa n := by
        intro n hn
        rw [update_of_ne]; rintro rfl; exact ha hn
      cases hd : dn fdir sa a with
      | none =>
        refine ⟨update st.sa a (ndNum nd a), ?_, hup0, hup⟩
        simp only [ungroupStep, Res.bind_ok, hget a ha, ndOut, hd]
        rw [Basin.set_fresh (hfr a (by simp))]
      | some m =>
        have hm : sa m ≠ 0 := (dn_eq_some.1 hd).1
        by_cases hself : ndNum nd m = ndNum nd a
        · refine ⟨update st.sa a (ndNum nd a), ?_, hup0, hup⟩
          simp only [ungroupStep, Res.bind_ok, hget a ha, hget m hm, ndOut, hd, if_pos hself]
          rw [Basin.set_fresh (hfr a (by simp))]
        · refine ⟨update (update st.sa a (ndNum nd a)) m (ndNum nd m), ?_, ?_, ?_⟩
          · simp only [ungroupStep, Res.bind_ok, hget a ha, hget m hm, ndOut, hd, if_neg hself]
            rw [Basin.set_fresh (hfr a (by simp))]
          · intro n hn
            rw [update_of_ne (by rintro rfl; exact hm hn), hup0 n hn]
          · intro n hn h
            by_cases hnm : n = m
            · subst hnm; simp
            · rw [update_of_ne hnm]; exact hup n hn h
    obtain ⟨sa1, e1, z1, v1⟩ := hstep
    rw [List.nodup_cons] at hnd
    obtain ⟨sa', e2, z2, v2⟩ := ih ⟨st.nsr ++ [(a, ndNum nd a, 1)], sa1,
        st.sg ++ [(ndNum nd a, ndOut fdir sa nd a)]⟩ (fun n hn => hl n (by simp [hn])) hnd.2 (by
      intro n hn hmem
      dsimp only at hmem
      have : n ≠ a := by rintro rfl; exact hnd.1 hn
      simp only [Dict.keys, List.map_append, List.mem_append, List.map_cons, List.map_nil,
        List.mem_singleton] at hmem
      rcases hmem with h | h
      · exact hfr n (by simp [hn]) h
      · exact this (hinj _ _ (hl n (by simp [hn])) ha h))
    refine ⟨sa', ?_, ?_, ?_⟩
    · rw [List.map_cons, List.foldl_cons, e1, e2]
      simp
    · intro n hn
      rw [z2 n hn]; exact z1 n hn
    · intro n hn h
      apply v2 n hn
      dsimp only
      rcases h with h | h
      · rcases List.mem_cons.1 h with rfl | h
        · right; exact v1 n hn (.inl rfl)
        · left; exact h
      · right; exact v1 n hn (.inr h)

/-- what an ungrouped call returns -/
theorem ungrouped_main (hl : CellsFit fdir sa limit) :
    ∃ (sn sa' : Fin N → ℤ) (nsr : List (Fin N × ℤ × ℤ)) (sg : Dict ℤ ℤ),
      (∀ b, mf2005 limit fuel b fdir sa false = (reshapeCheck b N).bind fun _ =>
        .ok ⟨sa', cellGraph fdir sa, sg, nsr⟩) ∧
      nsr = (strmNodes sa).map (fun n => (n, sn n, 1)) ∧
      sg = (strmNodes sa).map (fun n => (sn n, match dn fdir sa n with
        | none => 0
        | some m => if m = n then 0 else sn m)) ∧
      (∀ n, sa n = 0 → sa' n = 0) ∧ (∀ n, sa n ≠ 0 → sa' n = sn n) ∧
      (∀ n, sa n ≠ 0 → 1 ≤ sn n ∧ sn n ≤ nStream sa) ∧
      (∀ m n, sa m ≠ 0 → sa n ≠ 0 → sn m = sn n → m = n) ∧
      ((∀ x y, ReflTransGen (Feeds fdir sa) x y → ReflTransGen (Feeds fdir sa) y x → x = y) →
        ∀ x y, Feeds fdir sa x y → x ≠ y → sn x < sn y) := by
  obtain ⟨hN, hK⟩ := ndFold_ok (cellGraph fdir sa) ([], 1) Numbered.nil
  set nd := ((cellGraph fdir sa).foldl ndStep ([], 1)).1 with hnd
  have hk : ∀ n, n ∈ nd.keys ↔ sa n ≠ 0 := by
    intro n
    rw [hK]
    simp only [Dict.keys_nil, List.not_mem_nil, false_or]
    rw [cellGraph_eq]
    constructor
    · rintro ⟨e, he, h⟩
      obtain ⟨x, hx, rfl⟩ := List.mem_map.1 he
      rcases h with rfl | h
      · exact mem_strmNodes.1 hx
      · exact (dn_eq_some.1 h).1
    · intro hn
      exact ⟨_, List.mem_map.2 ⟨n, mem_strmNodes.2 hn, rfl⟩, .inl rfl⟩
  have hvn : (nd.map Prod.snd).Nodup := by
    rw [hN.vals]; exact List.nodup_range.map (fun a b h => by simpa using h)
  have hpos : ∀ x ∈ nd.map Prod.snd, x ≠ 0 := by
    intro x hx
    rw [hN.vals, List.mem_map] at hx
    obtain ⟨i, _, rfl⟩ := hx
    omega
  have hgetv : ∀ n, sa n ≠ 0 → nd.get? n = some (ndNum nd n) := by
    intro n hn
    obtain ⟨v, hv⟩ := Dict.mem_keys_iff.1 ((hk n).2 hn)
    simp [ndNum, hv]
  have hinj : ∀ m n, sa m ≠ 0 → sa n ≠ 0 → ndNum nd m = ndNum nd n → m = n := by
    intro m n hm hn h
    have h1 := Dict.mem_of_get? (hgetv m hm)
    have h2 := Dict.mem_of_get? (hgetv n hn)
    have := List.inj_on_of_nodup_map hvn h1 h2 h
    exact congrArg Prod.fst this
  have hne0 : ∀ n, sa n ≠ 0 → ndNum nd n ≠ 0 := by
    intro n hn
    exact hpos _ (List.mem_map.2 ⟨_, Dict.mem_of_get? (hgetv n hn), rfl⟩)
  obtain ⟨sa1, e1, z1, v1⟩ := ungroupFold_ok (fdir := fdir) hk hinj (strmNodes sa) ⟨[], sa, []⟩
    (fun n hn => mem_strmNodes.1 hn) (strmNodes_nodup sa) (by simp)
  simp only [List.nil_append] at e1
  set st : WState N := ⟨(strmNodes sa).map (fun n => (n, ndNum nd n, 1)), sa1,
    (strmNodes sa).map (fun n => (ndNum nd n, ndOut fdir sa nd n))⟩ with hst
  have hsgk : st.sg.keys = (strmNodes sa).map (ndNum nd) := keys_map_pair _ _ _
  have hsgnd : st.sg.keys.Nodup := by
    rw [hsgk]
    exact (strmNodes_nodup sa).map_on (fun x hx y hy h => hinj x y (mem_strmNodes.1 hx) (mem_strmNodes.1 hy) h)
  have hin : ∀ n, sa n ≠ 0 → ndNum nd n ∈ st.sg.keys := by
    intro n hn
    rw [hsgk]; exact List.mem_map.2 ⟨n, mem_strmNodes.2 hn, rfl⟩
  have hlen : st.sg.length = nStream sa := by
    simp only [hst, List.length_map, nStream]
    exact strmNodes_card sa
  have hflow : ∀ u v, FlowsTo st.sg u v → v ≠ 0 → ∃ p q, u = ndNum nd p ∧ v = ndNum nd q ∧ Feeds fdir sa p q := by
    rintro u v ⟨_, h⟩ hv
    obtain ⟨n, hn, he⟩ := List.mem_map.1 (Dict.mem_of_get? h)
    simp only [Prod.mk.injEq] at he
    obtain ⟨rfl, rfl⟩ := he
    unfold ndOut at hv ⊢
    cases hd : dn fdir sa n with
    | none => rw [hd] at hv; exact absurd rfl hv
    | some m =>
      rw [hd] at hv
      dsimp only at hv ⊢
      split at hv
      · exact absurd rfl hv
      · rename_i hs
        rw [if_neg hs]
        exact ⟨n, m, rfl, rfl, (dn_feeds (mem_strmNodes.1 hn)).1 hd⟩
  have hshort : ShortPaths st.sg limit := by
    apply short_of_links (fun n => if sa n ≠ 0 then some (ndNum nd n) else none) (R := Feeds fdir sa)
      (P := fun n => sa n ≠ 0) hl
    · intro x y hxy hy
      obtain ⟨p, q, rfl, rfl, hf⟩ := hflow x y hxy hy
      exact ⟨p, q, hf.1, by simp [hf.1], by simp [hf.2.1], hf⟩
    · intro x y hxy
      obtain ⟨n, hn, he⟩ := List.mem_map.1 (Dict.mem_of_get? hxy.2)
      simp only [Prod.mk.injEq] at he
      have := mem_strmNodes.1 hn
      exact ⟨n, this, by simp [this, he.1]⟩
    · intro p q x hp hq
      split at hp
      · split at hq
        · rename_i h1 h2
          exact hinj p q h1 h2 (Option.some.inj (hp.trans hq.symm))
        · cases hq
      · cases hp
  obtain ⟨order, o1, o2, o3, o4, o5, o6⟩ := finish_ok (st := st) hsgnd
    (by
      rw [hsgk]
      intro h
      obtain ⟨n, hn, h⟩ := List.mem_map.1 h
      exact hne0 n (mem_strmNodes.1 hn) h)
    (by
      intro e he
      obtain ⟨n, hn, rfl⟩ := List.mem_map.1 he
      dsimp only
      unfold ndOut
      cases hd : dn fdir sa n with
      | none => left; rfl
      | some m =>
        dsimp only
        split
        · left; rfl
        · right; exact hin m (dn_eq_some.1 hd).1)
    (by
      intro r hr
      obtain ⟨n, hn, rfl⟩ := List.mem_map.1 hr
      exact hin n (mem_strmNodes.1 hn))
    (limit := limit) hshort (cellGraph fdir sa)
  have hord : ∀ n, sa n ≠ 0 → ndNum nd n ∈ order := fun n hn => (o2 _).2 (hin n hn)
  refine ⟨fun n => pos order (ndNum nd n), fun n => if sa1 n ∈ order then pos order (sa1 n) else 0,
    st.nsr.map (fun r => (r.1, pos order r.2.1, r.2.2)),
    st.sg.map (fun e => (pos order e.1, pos order e.2)), ?_, ?_, ?_, ?_, ?_, ?_, ?_, ?_⟩
  · intro b
    rw [← o6 b]
    simp only [mf2005, ungrouped, Bool.false_eq_true, if_false]
    rw [← hnd]
    rw [show List.foldl (ungroupStep nd) (Res.ok ⟨[], sa, []⟩) (cellGraph fdir sa) = .ok st from by
      conv_lhs => rw [cellGraph_eq]
      exact e1, Res.bind_ok]
  · simp [hst]
  · simp only [hst, List.map_map]
    apply List.map_congr_left
    intro n hn
    have hn' := mem_strmNodes.1 hn
    simp only [comp_apply, ndOut]
    congr 1
    cases hd : dn fdir sa n with
    | none => simp [pos]
    | some m =>
      dsimp only
      by_cases hmn : m = n
      · subst hmn; simp [pos]
      · rw [if_neg (fun h => hmn (hinj m n (dn_eq_some.1 hd).1 hn' h)), if_neg hmn]
  · intro n hn
    have : sa1 n = 0 := by rw [z1 n hn]; exact hn
    simp [this, o3]
  · intro n hn
    have := v1 n hn (.inl (mem_strmNodes.2 hn))
    dsimp only
    rw [this, if_pos (hord n hn)]
  · intro n hn
    dsimp only
    rw [pos, if_neg (hne0 n hn)]
    have := List.idxOf_lt_length_iff.2 (hord n hn)
    rw [o4, hlen] at this
    omega
  · intro m n hm hn h
    exact hinj m n hm hn (pos_inj (hord m hm) (hne0 m hm) h)
  · intro hac x y hxy hne
    have hx : sa x ≠ 0 := hxy.1
    have hy : sa y ≠ 0 := hxy.2.1
    have hpath : ∀ u v, ReflTransGen (FlowsTo st.sg) u v → v ≠ 0 → ∀ p, sa p ≠ 0 → u = ndNum nd p →
        ∃ q, sa q ≠ 0 ∧ v = ndNum nd q ∧ ReflTransGen (Feeds fdir sa) p q := by
      intro u v huv
      induction huv with
      | refl => intro _ p hp h; exact ⟨p, hp, h, .refl⟩
      | tail _ hbc ih =>
        intro hv p hp h
        obtain ⟨q, hq, rfl, hr⟩ := ih hbc.1 p hp h
        obtain ⟨p', q', e1, e2, hf⟩ := hflow _ _ hbc hv
        have := hinj q p' hq hf.1 e1
        subst this
        exact ⟨q', hf.2.1, e2, hr.tail hf⟩
    have hacyc : Acyclic st.sg := by
      intro u v huv hvu
      by_contra hne'
      have hu0 : u ≠ 0 := by
        rintro rfl
        rcases ReflTransGen.cases_head huv with h | ⟨z, hz, _⟩
        · exact hne' h
        · exact hz.1 rfl
      have hv0 : v ≠ 0 := by
        rintro rfl
        rcases ReflTransGen.cases_head hvu with h | ⟨z, hz, _⟩
        · exact hne' h.symm
        · exact hz.1 rfl
      obtain ⟨p, hp, rfl⟩ : ∃ p, sa p ≠ 0 ∧ u = ndNum nd p := by
        rcases ReflTransGen.cases_head huv with h | ⟨z, hz, _⟩
        · exact absurd h hne'
        · have : u ∈ st.sg.keys := Dict.mem_keys_iff.2 ⟨z, hz.2⟩
          rw [hsgk] at this
          obtain ⟨p, hp, rfl⟩ := List.mem_map.1 this
          exact ⟨p, mem_strmNodes.1 hp, rfl⟩
      obtain ⟨q, hq, rfl, hr1⟩ := hpath _ _ huv hv0 p hp rfl
      obtain ⟨p', hp', e', hr2⟩ := hpath _ _ hvu hu0 q hq rfl
      have := hinj p p' hp hp' e'
      subst this
      exact hne' (congrArg _ (hac _ _ hr1 hr2))
    have hdn := (dn_feeds hx).2 hxy
    have hout : ndOut fdir sa nd x = ndNum nd y := by
      simp only [ndOut, hdn]
      rw [if_neg (fun h => hne (hinj y x hy hx h).symm)]
    have hbefore := o5 hacyc (ndNum nd x) (hord x hx) (ndNum nd y) ⟨hne0 x hx, by
      apply Dict.get?_of_mem hsgnd
      exact List.mem_map.2 ⟨x, mem_strmNodes.2 hx, by rw [hout]⟩⟩ (hne0 y hy)
      (fun h => hne (hinj x y hx hy h.symm))
    have := idxOf_lt_of_before o1 hbefore
    dsimp only
    rw [pos, pos, if_neg (hne0 x hx), if_neg (hne0 y hy)]
    omega

/-- **C59.** With `group_segments=False` the call succeeds (structured grid) for every network, and
every stream cell is its own segment with reach 1 (and nothing else is listed); the segments are
numbered `1 … k` without repetition; the outseg of a cell's segment is the segment of the cell it flows
to, and 0 if it leaves the stream or flows to itself.  On networks without flow cycles through two or
more stream cells the numbers increase downstream. -/
theorem C59_ungrouped (hl : CellsFit fdir sa limit) :
    ∃ out, mf2005 limit fuel false fdir sa false = .ok out ∧
      (out.nsr.map Prod.fst).Nodup ∧
      (∀ n s r, (n, s, r) ∈ out.nsr ↔ sa n ≠ 0 ∧ s = out.sa n ∧ r = 1) ∧
      (∀ n, sa n = 0 → out.sa n = 0) ∧
      (∀ n, sa n ≠ 0 → 1 ≤ out.sa n ∧ out.sa n ≤ nStream sa) ∧
      (∀ m n, sa m ≠ 0 → sa n ≠ 0 → out.sa m = out.sa n → m = n) ∧
      out.sg.keys.Nodup ∧ (∀ s, s ∈ out.sg.keys ↔ ∃ n, sa n ≠ 0 ∧ out.sa n = s) ∧
      (∀ n m, Feeds fdir sa n m → n ≠ m → out.sg.get? (out.sa n) = some (out.sa m)) ∧
      (∀ n, sa n ≠ 0 → (Feeds fdir sa n n ∨ ∀ m, ¬ Feeds fdir sa n m) →
        out.sg.get? (out.sa n) = some 0) ∧
      ((∀ x y, ReflTransGen (Feeds fdir sa) x y → ReflTransGen (Feeds fdir sa) y x → x = y) →
        ∀ s t, out.sg.get? s = some t → t = 0 ∨ s < t) := by
  obtain ⟨sn, sa', nsr, sg, e, hnsr, hsg, hz, hv, hr, hinj, hord⟩ :=
    ungrouped_main (fdir := fdir) (fuel := fuel) (sa := sa) hl
  have hkeys : Dict.keys sg = (strmNodes sa).map sn := by rw [hsg, keys_map_pair]
  have hknd : (Dict.keys sg).Nodup := by
    rw [hkeys]
    exact (strmNodes_nodup sa).map_on (fun x hx y hy h => hinj x y (mem_strmNodes.1 hx) (mem_strmNodes.1 hy) h)
  refine ⟨⟨sa', cellGraph fdir sa, sg, nsr⟩, by rw [e false]; rfl, ?_, ?_, hz, ?_, ?_, hknd, ?_, ?_, ?_, ?_⟩
  · dsimp only
    rw [hnsr, List.map_map]
    simpa [Function.comp_def] using strmNodes_nodup sa
  · intro n s r
    dsimp only
    rw [hnsr, List.mem_map]
    constructor
    · rintro ⟨x, hx, he⟩
      simp only [Prod.mk.injEq] at he
      obtain ⟨rfl, rfl, rfl⟩ := he
      have hx' := mem_strmNodes.1 hx
      exact ⟨hx', (hv x hx').symm, rfl⟩
    · rintro ⟨hn, rfl, rfl⟩
      exact ⟨n, mem_strmNodes.2 hn, by rw [hv n hn]⟩
  · intro n hn
    dsimp only
    rw [hv n hn]; exact hr n hn
  · intro m n hm hn h
    dsimp only at h
    rw [hv m hm, hv n hn] at h
    exact hinj m n hm hn h
  · intro s
    dsimp only
    rw [hkeys, List.mem_map]
    constructor
    · rintro ⟨n, hn, rfl⟩
      exact ⟨n, mem_strmNodes.1 hn, hv n (mem_strmNodes.1 hn)⟩
    · rintro ⟨n, hn, rfl⟩
      exact ⟨n, mem_strmNodes.2 hn, (hv n hn).symm⟩
  · intro n m h hne
    dsimp only
    rw [hv n h.1, hv m h.2.1]
    apply Dict.get?_of_mem hknd
    rw [hsg]
    refine List.mem_map.2 ⟨n, mem_strmNodes.2 h.1, ?_⟩
    simp only [(dn_feeds h.1).2 h]
    rw [if_neg (Ne.symm hne)]
  · intro n hn h
    dsimp only
    rw [hv n hn]
    apply Dict.get?_of_mem hknd
    rw [hsg]
    refine List.mem_map.2 ⟨n, mem_strmNodes.2 hn, ?_⟩
    rcases h with h | h
    · simp only [(dn_feeds hn).2 h, if_true]
    · simp only [(dn_none hn).2 h]
  · intro hac s t h
    dsimp only at h
    have hm := Dict.mem_of_get? h
    rw [hsg] at hm
    obtain ⟨n, hn, he⟩ := List.mem_map.1 hm
    have hn' := mem_strmNodes.1 hn
    simp only [Prod.mk.injEq] at he
    obtain ⟨rfl, rfl⟩ := he
    cases hd : dn fdir sa n with
    | none => left; rfl
    | some m =>
      dsimp only
      by_cases hmn : m = n
      · left; rw [if_pos hmn]
      · right; rw [if_neg hmn]; exact hord hac n m ((dn_feeds hn').1 hd) (Ne.symm hmn)

/-- **C59** (and C56), the limit is harmless: under any recursion limit the call raises `RecursionError` or does
what it does under every larger limit. -/
theorem C59_limit {x y : ℕ} (h : x ≤ y) (g : Bool) :
    mf2005 x fuel b fdir sa g = .err .recursionError ∨
      mf2005 x fuel b fdir sa g = mf2005 y fuel b fdir sa g := mf2005_leRec h b g

/-! ### C60 -/

/-- **C60, refuted.** On an unstructured grid with any number of cells other than one the connectivity
never succeeds: for every flow-direction array, stream array, and both values of `group_segments` it
raises `ValueError`. -/
theorem C60_refuted (hN : N ≠ 1) (hf : N ≤ fuel) (fdir sa : Fin N → ℤ) (group : Bool)
    (hl : if group then SegsFit fdir sa limit else CellsFit fdir sa limit) :
    mf2005 limit fuel true fdir sa group = .err .valueError := by
  cases group with
  | true =>
    obtain ⟨ss, sn, sa', h1, h2, h3, h4, h5, h6, h7, h8⟩ := grouped_main (fdir := fdir) (sa := sa) hf hl
    rw [h5 true]
    simp [reshapeCheck, hN, Res.bind]
  | false =>
    obtain ⟨sn, sa', nsr, sg, e, _⟩ := ungrouped_main (fdir := fdir) (fuel := fuel) (sa := sa) hl
    rw [e true]
    simp [reshapeCheck, hN, Res.bind]

/-- **C60, the part that holds.** On structured and vertex grids, and on a grid of one cell, the
connectivity succeeds for every network.  Missing: unstructured grids of two or more cells, where the
claim is false (`C60_refuted`). -/
theorem C60_partial (hb : b = false ∨ N = 1) (hf : N ≤ fuel) (fdir sa : Fin N → ℤ) (group : Bool)
    (hl : if group then SegsFit fdir sa limit else CellsFit fdir sa limit) :
    ∃ out, mf2005 limit fuel b fdir sa group = .ok out := by
  have hb' : reshapeCheck b N = .ok () := by
    unfold reshapeCheck
    rw [if_neg]
    rintro ⟨h1, h2⟩
    rcases hb with h | h
    · rw [h] at h1; cases h1
    · exact h2 h
  cases group with
  | true =>
    obtain ⟨ss, sn, sa', h1, h2, h3, h4, h5, h6, h7, h8⟩ := grouped_main (fdir := fdir) (sa := sa) hf hl
    exact ⟨_, by rw [h5 b, hb']; rfl⟩
  | false =>
    obtain ⟨sn, sa', nsr, sg, e, _⟩ := ungrouped_main (fdir := fdir) (fuel := fuel) (sa := sa) hl
    exact ⟨_, by rw [e b, hb']; rfl⟩

/-! ### Concrete cases -/

/-- two headwaters 0 and 1 meet in 2, which flows to 3 and out through the non-stream cell 4 -/
def exFdir : Fin 5 → ℤ := ![2, 2, 3, 4, 4]
def exSa : Fin 5 → ℤ := ![1, 1, 1, 1, 0]

/-- the parts of the result as lists -/
def Out.show (o : Out N) : List ℤ × List (ℤ × ℤ) × List (Fin N × ℤ × ℤ) := (List.ofFn o.sa, o.sg, o.nsr)

example : (mf2005 10 5 false exFdir exSa true).map Out.show =
    .ok ([2, 1, 3, 3, 0], [(2, 3), (1, 3), (3, 0)], [(0, 2, 1), (1, 1, 1), (2, 3, 1), (3, 3, 2)]) := by
  decide +kernel

example : (mf2005 10 5 false exFdir exSa false).map Out.show =
    .ok ([2, 1, 3, 4, 0], [(2, 3), (1, 3), (3, 4), (4, 0)],
      [(0, 2, 1), (1, 1, 1), (2, 3, 1), (3, 4, 1)]) := by
  decide +kernel

/-- The hypothesis of `C56_partition` is needed: next to a network with one segment, a flow cycle
0 ↔ 1 of stream cells gets no row at all, and yet its cells carry the number of that segment. -/
theorem C56_cycle_unlisted :
    (mf2005 10 4 false (![1, 0, 3, -1] : Fin 4 → ℤ) ![1, 1, 1, 1] true).map Out.show =
      .ok ([1, 1, 1, 1], [(1, 0)], [(2, 1, 1), (3, 1, 2)]) := by decide +kernel

/-- the hypothesis of `C56_partition` holds of this network -/
example : ∀ n, exSa n ≠ 0 → ∃ h, Headwater exFdir exSa h ∧ ReflTransGen (Feeds exFdir exSa) h n := by
  have h0 : Headwater exFdir exSa 0 := by
    refine ⟨by decide, ?_⟩
    rintro m ⟨_, _, h⟩
    revert h; revert m; decide
  have h1 : Headwater exFdir exSa 1 := by
    refine ⟨by decide, ?_⟩
    rintro m ⟨_, _, h⟩
    revert h; revert m; decide
  have f02 : Feeds exFdir exSa 0 2 := ⟨by decide, by decide, by decide⟩
  have f23 : Feeds exFdir exSa 2 3 := ⟨by decide, by decide, by decide⟩
  intro n hn
  fin_cases n
  · exact ⟨0, h0, .refl⟩
  · exact ⟨1, h1, .refl⟩
  · exact ⟨0, h0, .single f02⟩
  · exact ⟨0, h0, (ReflTransGen.single f02).tail f23⟩
  · exact absurd rfl hn

/-- the recursion limit suffices for it -/
example : CellsFit exFdir exSa 10 ∧ SegsFit exFdir exSa 10 := by
  have h : CellsFit exFdir exSa 10 := cellsFit_of_count (by decide +kernel)
  exact ⟨h, h.segs⟩

/-- its flow has no cycles through two or more stream cells -/
example : ∀ x y, ReflTransGen (Feeds exFdir exSa) x y → ReflTransGen (Feeds exFdir exSa) y x → x = y := by
  have hup : ∀ x y, Feeds exFdir exSa x y → x < y := by
    rintro x y ⟨h1, h2, h3⟩
    revert x y; decide
  have hle : ∀ x y, ReflTransGen (Feeds exFdir exSa) x y → x ≤ y := by
    intro x y h
    induction h with
    | refl => exact le_rfl
    | tail _ h ih => exact ih.trans (hup _ _ h).le
  intro x y h1 h2
  exact le_antisymm (hle x y h1) (hle y x h2)

/-- `C60_refuted` is met by the same network on an unstructured grid -/
example : (mf2005 10 5 true exFdir exSa true).map Out.show = .err .valueError := by decide +kernel

end Dany.Seg
