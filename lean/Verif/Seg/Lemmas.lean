import Verif.Seg.Model
import Verif.Seg.Spec
import Verif.Reach.Props

/-!
# Lemmas about segment starts and the walk along a segment
-/

namespace Dany.Seg

open Function Reach

variable {N : ℕ} {fdir sa : Fin N → ℤ}

/-- the downstream stream cell -/
abbrev dn (fdir sa : Fin N → ℤ) (n : Fin N) : Option (Fin N) := dnOf fdir (strmNodes sa) n

theorem dn_eq_some {n m : Fin N} : dn fdir sa n = some m ↔ sa m ≠ 0 ∧ fdir n = ((m : ℕ) : ℤ) := by
  unfold dn dnOf
  constructor
  · intro h
    have h1 := List.find?_some h
    have h2 := List.mem_of_find?_eq_some h
    simp only [decide_eq_true_eq] at h1
    exact ⟨mem_strmNodes.1 h2, h1.symm⟩
  · rintro ⟨h1, h2⟩
    have hs : ((strmNodes sa).find? (fun m : Fin N => decide (((m : ℕ) : ℤ) = fdir n))).isSome := by
      rw [List.find?_isSome]
      exact ⟨m, mem_strmNodes.2 h1, by simp [h2]⟩
    obtain ⟨m', hm'⟩ := Option.isSome_iff_exists.1 hs
    have := List.find?_some hm'
    simp only [decide_eq_true_eq] at this
    rw [hm']
    congr 1
    apply Fin.ext
    omega

theorem dn_feeds {n m : Fin N} (hn : sa n ≠ 0) : dn fdir sa n = some m ↔ Feeds fdir sa n m := by
  rw [dn_eq_some]; exact ⟨fun h => ⟨hn, h⟩, fun h => h.2⟩

theorem dn_none {n : Fin N} (hn : sa n ≠ 0) : dn fdir sa n = none ↔ ∀ m, ¬ Feeds fdir sa n m := by
  constructor
  · intro h m hm
    rw [(dn_feeds hn).2 hm] at h; cases h
  · intro h
    cases hd : dn fdir sa n with
    | none => rfl
    | some m => exact absurd ((dn_feeds hn).1 hd) (h m)

theorem cellGraph_eq (fdir sa : Fin N → ℤ) :
    cellGraph fdir sa = (strmNodes sa).map (fun n => (n, dn fdir sa n)) := by
  unfold cellGraph
  rw [foldl_set_fresh (fun n : Fin N => n) (fun n => dnOf fdir (strmNodes sa) n)]
  · simp
  · simpa using strmNodes_nodup sa

theorem cellGraph_keys : (cellGraph fdir sa).keys = strmNodes sa := by
  rw [cellGraph_eq, keys_map_pair]; simp

theorem cellGraph_get {n : Fin N} (h : sa n ≠ 0) : (cellGraph fdir sa).get? n = some (dn fdir sa n) := by
  apply Dict.get?_of_mem
  · rw [cellGraph_keys]; exact strmNodes_nodup sa
  · rw [cellGraph_eq]; exact List.mem_map.2 ⟨n, mem_strmNodes.2 h, rfl⟩

theorem nodesDn_eq : nodesDn (cellGraph fdir sa) = (strmNodes sa).filterMap (dn fdir sa) := by
  unfold nodesDn Dict.values
  rw [cellGraph_eq, List.map_map, List.filterMap_map]
  rfl

theorem mem_nodesDn {m : Fin N} : m ∈ nodesDn (cellGraph fdir sa) ↔ ∃ n, Feeds fdir sa n m := by
  rw [nodesDn_eq, List.mem_filterMap]
  constructor
  · rintro ⟨n, hn, h⟩
    exact ⟨n, (dn_feeds (mem_strmNodes.1 hn)).1 h⟩
  · rintro ⟨n, h⟩
    exact ⟨n, mem_strmNodes.2 h.1, (dn_feeds h.1).2 h⟩

theorem count_filterMap (f : Fin N → Option (Fin N)) (m : Fin N) : ∀ (l : List (Fin N)),
    (l.filterMap f).count m = (l.filter (fun n => f n = some m)).length := by
  intro l
  induction l with
  | nil => rfl
  | cons a l ih =>
    cases h : f a with
    | none => rw [List.filterMap_cons_none h, ih, List.filter_cons_of_neg (by simp [h])]
    | some b =>
      rw [List.filterMap_cons_some h]
      by_cases hb : b = m
      · subst hb
        rw [List.count_cons_self, ih, List.filter_cons_of_pos (by simp [h]), List.length_cons]
      · rw [List.count_cons_of_ne hb, ih, List.filter_cons_of_neg (by simp [h, hb])]

theorem count_nodesDn {m : Fin N} :
    1 < (nodesDn (cellGraph fdir sa)).count m ↔ Confluence fdir sa m := by
  rw [nodesDn_eq, count_filterMap, ← List.toFinset_card_of_nodup ((strmNodes_nodup sa).filter _),
    Finset.one_lt_card_iff]
  simp only [List.mem_toFinset, List.mem_filter, decide_eq_true_eq, mem_strmNodes]
  constructor
  · rintro ⟨a, b, ⟨ha, ha'⟩, ⟨hb, hb'⟩, hne⟩
    exact ⟨a, b, hne, (dn_feeds ha).1 ha', (dn_feeds hb).1 hb'⟩
  · rintro ⟨a, b, hne, ha, hb⟩
    exact ⟨a, b, ⟨ha.1, (dn_feeds ha.1).2 ha⟩, ⟨hb.1, (dn_feeds hb.1).2 hb⟩, hne⟩

/-- a dictionary whose values count `1, 2, …` and the counter that goes with it -/
structure Numbered (st : Dict (Fin N) ℤ × ℤ) : Prop where
  nodup : st.1.keys.Nodup
  next : st.2 = st.1.length + 1
  vals : st.1.map Prod.snd = (List.range st.1.length).map (fun i : ℕ => (i : ℤ) + 1)

theorem Numbered.nil : Numbered (([] : Dict (Fin N) ℤ), 1) := ⟨List.nodup_nil, rfl, rfl⟩

theorem Numbered.add {st : Dict (Fin N) ℤ × ℤ} (h : Numbered st) {n : Fin N} (hn : n ∉ st.1.keys) :
    Numbered (st.1.set n st.2, st.2 + 1) := by
  refine ⟨Dict.nodup_keys_set h.nodup _ _, ?_, ?_⟩
  · dsimp only
    rw [Basin.set_fresh hn, List.length_append, h.next]
    push_cast; rfl
  · dsimp only
    rw [Basin.set_fresh hn, List.map_append, h.vals, List.length_append]
    simp only [List.length_cons, List.length_nil, Nat.zero_add, List.range_succ, List.map_append,
      List.map_cons, List.map_nil, h.next]

theorem headFold_ok (dns : List (Fin N)) : ∀ (l : List (Fin N)) (st : Dict (Fin N) ℤ × ℤ),
    Numbered st → l.Nodup → (∀ n ∈ l, n ∉ st.1.keys) →
    Numbered (l.foldl (headStep dns) st) ∧
      ∀ n, n ∈ (l.foldl (headStep dns) st).1.keys ↔ n ∈ st.1.keys ∨ (n ∈ l ∧ n ∉ dns) := by
  intro l
  induction l with
  | nil => intro st h _ _; exact ⟨h, by simp⟩
  | cons a l ih =>
    intro st h hl hk
    rw [List.nodup_cons] at hl
    rw [List.foldl_cons]
    by_cases ha : a ∈ dns
    · have : headStep dns st a = st := by unfold headStep; rw [if_neg (by simpa using ha)]
      rw [this]
      obtain ⟨h1, h2⟩ := ih st h hl.2 (fun n hn => hk n (by simp [hn]))
      refine ⟨h1, fun n => ?_⟩
      rw [h2, List.mem_cons]
      constructor
      · rintro (h | ⟨h, h'⟩)
        · exact .inl h
        · exact .inr ⟨.inr h, h'⟩
      · rintro (h | ⟨rfl | h, h'⟩)
        · exact .inl h
        · exact absurd ha h'
        · exact .inr ⟨h, h'⟩
    · have : headStep dns st a = (st.1.set a st.2, st.2 + 1) := by unfold headStep; rw [if_pos ha]
      rw [this]
      obtain ⟨h1, h2⟩ := ih _ (h.add (hk a (by simp))) hl.2 (by
        intro n hn hm
        rw [Dict.mem_keys_set] at hm
        rcases hm with hm | rfl
        · exact hk n (by simp [hn]) hm
        · exact hl.1 hn)
      refine ⟨h1, fun n => ?_⟩
      rw [h2, Dict.mem_keys_set, List.mem_cons]
      constructor
      · rintro ((h | rfl) | ⟨h, h'⟩)
        · exact .inl h
        · exact .inr ⟨.inl rfl, ha⟩
        · exact .inr ⟨.inr h, h'⟩
      · rintro (h | ⟨rfl | h, h'⟩)
        · exact .inl (.inl h)
        · exact .inl (.inr rfl)
        · exact .inr ⟨h, h'⟩

theorem confFold_ok (dns : List (Fin N)) : ∀ (l : List (Fin N)) (st : Dict (Fin N) ℤ × ℤ),
    Numbered st →
    Numbered (l.foldl (confStep dns) st) ∧
      ∀ n, n ∈ (l.foldl (confStep dns) st).1.keys ↔ n ∈ st.1.keys ∨ (n ∈ l ∧ 1 < dns.count n) := by
  intro l
  induction l with
  | nil => intro st h; exact ⟨h, by simp⟩
  | cons a l ih =>
    intro st h
    rw [List.foldl_cons]
    have key : Numbered (confStep dns st a) ∧
        ∀ n, n ∈ (confStep dns st a).1.keys ↔ n ∈ st.1.keys ∨ (n = a ∧ 1 < dns.count n) := by
      unfold confStep
      by_cases hc : dns.count a > 1
      · rw [if_pos hc]
        by_cases hk : a ∈ st.1.keys
        · rw [if_neg (by simpa using hk)]
          refine ⟨h, fun n => ⟨.inl, ?_⟩⟩
          rintro (h | ⟨rfl, _⟩)
          · exact h
          · exact hk
        · rw [if_pos hk]
          refine ⟨h.add hk, fun n => ?_⟩
          rw [Dict.mem_keys_set]
          constructor
          · rintro (h | rfl)
            · exact .inl h
            · exact .inr ⟨rfl, hc⟩
          · rintro (h | ⟨rfl, _⟩)
            · exact .inl h
            · exact .inr rfl
      · rw [if_neg hc]
        refine ⟨h, fun n => ⟨.inl, ?_⟩⟩
        rintro (h | ⟨rfl, h'⟩)
        · exact h
        · exact absurd h' hc
    obtain ⟨h1, h2⟩ := ih _ key.1
    refine ⟨h1, fun n => ?_⟩
    rw [h2, key.2, List.mem_cons]
    tauto

/-- segment starts are the headwaters and the confluences, numbered `1, 2, …` -/
theorem segStarts_ok (fdir sa : Fin N → ℤ) :
    (segStarts (cellGraph fdir sa)).keys.Nodup ∧
      (segStarts (cellGraph fdir sa)).map Prod.snd =
        (List.range (segStarts (cellGraph fdir sa)).length).map (fun i : ℕ => (i : ℤ) + 1) ∧
      ∀ n, n ∈ (segStarts (cellGraph fdir sa)).keys ↔ Start fdir sa n := by
  obtain ⟨h1, h2⟩ := headFold_ok (nodesDn (cellGraph fdir sa)) (cellGraph fdir sa).keys ([], 1)
    Numbered.nil (by rw [cellGraph_keys]; exact strmNodes_nodup sa) (by simp)
  obtain ⟨h3, h4⟩ := confFold_ok (nodesDn (cellGraph fdir sa)) (nodesDn (cellGraph fdir sa)) _ h1
  refine ⟨h3.nodup, h3.vals, fun n => ?_⟩
  unfold segStarts
  rw [h4, h2, cellGraph_keys, mem_strmNodes, mem_nodesDn, count_nodesDn]
  simp only [Dict.keys_nil, List.not_mem_nil, false_or]
  unfold Start Headwater
  constructor
  · rintro (⟨ha, hb⟩ | ⟨_, h⟩)
    · exact .inl ⟨ha, fun m hm => hb ⟨m, hm⟩⟩
    · exact .inr h
  · rintro (⟨ha, hb⟩ | h)
    · exact .inl ⟨ha, fun ⟨m, hm⟩ => hb m hm⟩
    · obtain ⟨a, b, _, hab, _⟩ := id h
      exact .inr ⟨⟨a, hab⟩, h⟩

/-! ### Paths -/

/-- the next cell of the same segment -/
def next (fdir sa : Fin N → ℤ) (S : Dict (Fin N) ℤ) (n : Fin N) : Option (Fin N) :=
  if sa n = 0 then none
  else match dn fdir sa n with
    | none => none
    | some m => if m ∈ S.keys then none else some m

/-- `p` is the list of cells of the segment from `a` on -/
inductive Path (nx : Fin N → Option (Fin N)) : Fin N → List (Fin N) → Prop
  | last {a} : nx a = none → Path nx a [a]
  | step {a b p} : nx a = some b → Path nx b p → Path nx a (a :: p)

theorem Path.ne_nil {nx : Fin N → Option (Fin N)} {a : Fin N} {p : List (Fin N)} (h : Path nx a p) :
    p ≠ [] := by cases h <;> simp

theorem Path.head {nx : Fin N → Option (Fin N)} {a : Fin N} {p : List (Fin N)} (h : Path nx a p) :
    ∃ q, p = a :: q := by cases h <;> exact ⟨_, rfl⟩

theorem Path.unique {nx : Fin N → Option (Fin N)} {a : Fin N} {p q : List (Fin N)} (h : Path nx a p)
    (h' : Path nx a q) : p = q := by
  induction h generalizing q with
  | last h0 =>
    cases h' with
    | last _ => rfl
    | step h1 _ => rw [h0] at h1; cases h1
  | step h0 _ ih =>
    cases h' with
    | last h1 => rw [h0] at h1; cases h1
    | step h1 h2 => rw [h0] at h1; cases h1; rw [ih h2]

/-- the cells after the first are all images -/
theorem Path.tail_image {nx : Fin N → Option (Fin N)} {a : Fin N} {p : List (Fin N)}
    (h : Path nx a p) {x : Fin N} (hx : x ∈ p) : x = a ∨ ∃ y ∈ p, nx y = some x := by
  induction h with
  | last _ => left; simpa using hx
  | @step a b p hb hp ih =>
    rcases List.mem_cons.1 hx with rfl | hx
    · left; rfl
    · right
      rcases ih hx with rfl | ⟨y, hy, hyx⟩
      · exact ⟨a, by simp, hb⟩
      · exact ⟨y, by simp [hy], hyx⟩

theorem Path.closed {nx : Fin N → Option (Fin N)} {a : Fin N} {p : List (Fin N)} (h : Path nx a p)
    {x y : Fin N} (hx : x ∈ p) (hxy : nx x = some y) : y ∈ p := by
  induction h with
  | last h0 => rw [List.mem_singleton] at hx; subst hx; rw [h0] at hxy; cases hxy
  | @step a b p hb hp ih =>
    rcases List.mem_cons.1 hx with rfl | hx
    · rw [hb] at hxy; cases hxy
      obtain ⟨q, rfl⟩ := hp.head
      simp
    · exact List.mem_cons_of_mem _ (ih hx)

/-- consecutive cells -/
theorem Path.getElem_succ {nx : Fin N → Option (Fin N)} {a : Fin N} {p : List (Fin N)}
    (h : Path nx a p) {i : ℕ} (hi : i + 1 < p.length) : nx (p[i]'(by omega)) = some p[i + 1] := by
  induction h generalizing i with
  | last _ => simp at hi
  | @step a b p hb hp ih =>
    cases i with
    | zero =>
      obtain ⟨q, rfl⟩ := hp.head
      simpa using hb
    | succ i =>
      rw [List.getElem_cons_succ, List.getElem_cons_succ]
      exact ih (by simpa using hi)

theorem Path.getLast {nx : Fin N → Option (Fin N)} {a : Fin N} {p : List (Fin N)}
    (h : Path nx a p) : nx (p.getLast h.ne_nil) = none := by
  induction h with
  | last h0 => simpa using h0
  | step hb hp ih => rw [List.getLast_cons hp.ne_nil]; exact ih

/-- a chain that starts outside the range of an injective `nx` ends -/
theorem path_exists {nx : Fin N → Option (Fin N)}
    (hinj : ∀ a b m, nx a = some m → nx b = some m → a = b) {s : Fin N} (hs : ∀ a, nx a ≠ some s) :
    ∀ (k : ℕ) (done : List (Fin N)) (a : Fin N), N ≤ k + done.length → a ∉ done → done.Nodup →
      (a = s ∨ ∃ y ∈ done, nx y = some a) → (∀ x ∈ done, x = s ∨ ∃ y ∈ done, nx y = some x) →
      ∃ p, Path nx a p ∧ (done ++ p).Nodup := by
  intro k
  induction k with
  | zero =>
    intro done a hk ha hnd _ _
    exfalso
    have h1 : (done ++ [a]).Nodup := by
      rw [List.nodup_append]
      exact ⟨hnd, by simp, fun x hx y hy => by rw [List.mem_singleton] at hy; subst hy; rintro rfl; exact ha hx⟩
    have := h1.length_le_card
    simp at this
    omega
  | succ k ih =>
    intro done a hk ha hnd hsrc hdone
    have h1 : (done ++ [a]).Nodup := by
      rw [List.nodup_append]
      exact ⟨hnd, by simp, fun x hx y hy => by rw [List.mem_singleton] at hy; subst hy; rintro rfl; exact ha hx⟩
    cases hb : nx a with
    | none => exact ⟨[a], .last hb, h1⟩
    | some b =>
      have hall : ∀ x ∈ done ++ [a], x = s ∨ ∃ y ∈ done, nx y = some x := by
        intro x hx
        rw [List.mem_append, List.mem_singleton] at hx
        rcases hx with hx | rfl
        · exact hdone x hx
        · exact hsrc
      have hbn : b ∉ done ++ [a] := by
        intro hm
        rcases hall b hm with rfl | ⟨y, hy, hyb⟩
        · exact hs a hb
        · exact ha (hinj _ _ _ hyb hb ▸ hy)
      obtain ⟨p, hp, hpn⟩ := ih (done ++ [a]) b (by simp; omega) hbn h1 (.inr ⟨a, by simp, hb⟩) (by
        intro x hx
        rcases hall x hx with h | ⟨y, hy, hyx⟩
        · exact .inl h
        · exact .inr ⟨y, by simp [hy], hyx⟩)
      exact ⟨a :: p, .step hb hp, by simpa using hpn⟩

theorem next_some {S : Dict (Fin N) ℤ} {a m : Fin N} :
    next fdir sa S a = some m ↔ Feeds fdir sa a m ∧ m ∉ S.keys := by
  unfold next
  by_cases h0 : sa a = 0
  · rw [if_pos h0]
    simp only [reduceCtorEq, false_iff, not_and]
    intro h; exact absurd h0 h.1
  rw [if_neg h0, ← dn_feeds h0]
  cases h : dn fdir sa a with
  | none => simp
  | some b =>
    dsimp only
    split
    · rename_i hb
      simp only [Option.some.injEq, false_iff, not_and, not_not, reduceCtorEq]
      rintro rfl; exact hb
    · rename_i hb
      simp only [Option.some.injEq]
      exact ⟨fun he => ⟨he, he ▸ hb⟩, fun he => he.1⟩

/-- rows written along a path -/
def rowsOf (seg rch : ℤ) : List (Fin N) → List (Fin N × ℤ × ℤ)
  | [] => []
  | a :: p => (a, seg, rch) :: rowsOf seg (rch + 1) p

/-- outflow of the last cell of a segment, as segment number -/
def outCode (fdir sa : Fin N → ℤ) (S : Dict (Fin N) ℤ) (n : Fin N) : ℤ :=
  match dn fdir sa n with
  | none => 0
  | some m => (S.get? m).getD 0

theorem walk_path {S : Dict (Fin N) ℤ} {seg : ℤ} {a : Fin N} {p : List (Fin N)}
    (hp : Path (next fdir sa S) a p) : (∀ x ∈ p, sa x ≠ 0) → ∀ (fuel : ℕ) (rch : ℤ) (st : WState N),
      p.length ≤ fuel → p.Nodup →
      walk (cellGraph fdir sa) S seg fuel a rch st = .ok
        ⟨st.nsr ++ rowsOf seg rch p, fun n => if n ∈ p then seg else st.sa n,
          st.sg.set seg (outCode fdir sa S (p.getLast hp.ne_nil))⟩ := by
  induction hp with
  | @last a h0 =>
    intro hst fuel rch st hf _
    obtain ⟨fuel, rfl⟩ : ∃ k, fuel = k + 1 := ⟨fuel - 1, by simp at hf; omega⟩
    have ha := hst a (by simp)
    simp only [walk, Dict.getE, cellGraph_get ha, Res.bind_ok, List.getLast_singleton]
    have hsa : update st.sa a seg = fun n => if n ∈ [a] then seg else st.sa n := by
      funext n
      by_cases hn : n = a
      · subst hn; simp
      · simp [hn]
    cases hd : dn fdir sa a with
    | none => simp [rowsOf, outCode, hd, hsa]
    | some m =>
      have hm : m ∈ S.keys := by
        by_contra hm
        have := next_some.2 ⟨(dn_feeds ha).1 hd, hm⟩
        rw [h0] at this; cases this
      obtain ⟨s, hs⟩ := Dict.mem_keys_iff.1 hm
      simp [rowsOf, outCode, hd, hs, hsa]
  | @step a b p hb hp ih =>
    intro hst fuel rch st hf hnd
    obtain ⟨fuel, rfl⟩ : ∃ k, fuel = k + 1 := ⟨fuel - 1, by simp at hf; omega⟩
    have ha := hst a (by simp)
    obtain ⟨hd, hk⟩ := next_some.1 hb
    rw [← dn_feeds ha] at hd
    rw [List.nodup_cons] at hnd
    simp only [walk, Dict.getE, cellGraph_get ha, Res.bind_ok, hd, Dict.get?_eq_none.2 hk]
    rw [ih (fun x hx => hst x (by simp [hx])) fuel (rch + 1) _ (by simpa using hf) hnd.2]
    simp only [rowsOf, List.append_assoc, List.singleton_append, List.getLast_cons hp.ne_nil]
    congr 2
    funext n
    by_cases hn : n = a
    · subst hn; simp [hnd.1]
    · simp [hn]

end Dany.Seg
