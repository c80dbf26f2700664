import Verif.Dirs.Slopes
import Mathlib.Data.Fintype.Card

/-!
# The search over a flat and the way back
-/

namespace Dany.Dirs

open Function

variable {N : ℕ}

theorem reals_mem {l : List (Entry N)} {c : List (Fin N)} (h : reals l = .ok c) :
    l = c.map some := by
  induction l generalizing c with
  | nil => simp only [reals, Res.ok.injEq] at h; subst h; rfl
  | cons e l ih =>
    cases e with
    | none => simp [reals] at h
    | some a =>
      simp only [reals] at h
      obtain ⟨c', hc', rfl⟩ := Res.map_eq_ok.1 h
      simp [ih hc']

theorem reals_map (c : List (Fin N)) : reals (c.map some) = .ok c := by
  induction c with
  | nil => rfl
  | cons a c ih => simp [reals, ih]

/-- without a fill entry all entries can be used as indices -/
theorem reals_ok {l : List (Entry N)} (h : none ∉ l) : ∃ c, reals l = .ok c := by
  induction l with
  | nil => exact ⟨[], rfl⟩
  | cons e l ih =>
    simp only [List.mem_cons, not_or] at h
    obtain ⟨c, hc⟩ := ih h.2
    cases e with
    | none => exact absurd rfl h.1
    | some a => exact ⟨a :: c, by simp [reals, hc]⟩

theorem set_new {κ α : Type*} [DecidableEq κ] {d : Dict κ α} {k : κ} (h : k ∉ d.keys) (v : α) :
    d.set k v = d ++ [(k, v)] := by
  induction d with
  | nil => rfl
  | cons x d ih =>
    obtain ⟨a, b⟩ := x
    simp only [Dict.keys, List.map_cons, List.mem_cons, not_or] at h
    simp only [Dict.set]
    rw [if_neg (Ne.symm h.1)]
    rw [ih h.2]
    rfl

theorem mem_set {κ α : Type*} [DecidableEq κ] {d : Dict κ α} {k : κ} {v : α} {e : κ × α}
    (h : e ∈ d.set k v) : e ∈ d ∨ e = (k, v) := by
  induction d with
  | nil => simpa [Dict.set] using h
  | cons x d ih =>
    obtain ⟨a, b⟩ := x
    simp only [Dict.set] at h
    split at h
    · rcases List.mem_cons.1 h with h | h
      · exact .inr h
      · exact .inl (List.mem_cons_of_mem _ h)
    · rcases List.mem_cons.1 h with h | h
      · left; rw [h]; exact List.mem_cons_self
      · rcases ih h with h | h
        · exact .inl (List.mem_cons_of_mem _ h)
        · exact .inr h

theorem mem_keys_of_mem {κ α : Type*} {d : Dict κ α} {k : κ} {v : α} (h : (k, v) ∈ d) : k ∈ d.keys :=
  List.mem_map.2 ⟨_, h, rfl⟩

theorem exists_of_mem_keys {κ α : Type*} {d : Dict κ α} {k : κ} (h : k ∈ d.keys) :
    ∃ v, (k, v) ∈ d := by
  obtain ⟨⟨a, b⟩, h1, rfl⟩ := List.mem_map.1 h
  exact ⟨b, h1⟩

theorem mem_erase {κ α : Type*} [DecidableEq κ] {d : Dict κ α} {k : κ} {e : κ × α}
    (h : e ∈ d.erase k) : e ∈ d := by
  induction d with
  | nil => exact h
  | cons x d ih =>
    obtain ⟨a, b⟩ := x
    simp only [Dict.erase] at h
    split at h
    · exact List.mem_cons_of_mem _ h
    · rcases List.mem_cons.1 h with h | h
      · rw [h]; exact List.mem_cons_self
      · exact List.mem_cons_of_mem _ (ih h)

theorem length_erase {κ α : Type*} [DecidableEq κ] {d : Dict κ α} {k : κ} (h : k ∈ d.keys) :
    (d.erase k).length + 1 = d.length := by
  induction d with
  | nil => cases h
  | cons x d ih =>
    obtain ⟨a, b⟩ := x
    simp only [Dict.erase]
    split
    · rfl
    · rename_i hk
      simp only [Dict.keys, List.map_cons, List.mem_cons] at h
      rcases h with h | h
      · exact absurd h.symm hk
      · simp only [List.length_cons]; rw [ih h]

theorem erase_mid {κ α : Type*} [DecidableEq κ] {pre post : Dict κ α} {k : κ} {v : α}
    (h : k ∉ pre.keys) : Dict.erase (pre ++ (k, v) :: post) k = pre ++ post := by
  induction pre with
  | nil => simp [Dict.erase]
  | cons x d ih =>
    obtain ⟨a, b⟩ := x
    simp only [Dict.keys, List.map_cons, List.mem_cons, not_or] at h
    simp only [List.cons_append, Dict.erase]
    rw [if_neg (Ne.symm h.1), ih h.2]

/-! ### The dictionary `_stack` -/

/-- `conn` is stored with a cell that has it among its candidates -/
def Linked (A : Fin N → List (Entry N)) (d : Dict (Fin N) (Fin N)) : Prop :=
  ∀ e ∈ d, some e.1 ∈ A e.2

/-- every entry points to `ix` or to a key stored earlier -/
def Ordered (ix : Fin N) (d : Dict (Fin N) (Fin N)) : Prop :=
  ∀ pre k p post, d = pre ++ (k, p) :: post → p = ix ∨ p ∈ Dict.keys pre

theorem Ordered.append {ix : Fin N} {d : Dict (Fin N) (Fin N)} (h : Ordered ix d) {k p : Fin N}
    (hp : p = ix ∨ p ∈ d.keys) : Ordered ix (d ++ [(k, p)]) := by
  intro pre k' p' post he
  rcases List.eq_nil_or_concat post with rfl | ⟨post', z, rfl⟩
  · have := List.append_inj' he rfl
    obtain ⟨h1, h2⟩ := this
    simp only [List.cons.injEq, Prod.mk.injEq, and_true] at h2
    rw [← h1, ← h2.2]
    exact hp
  · rw [List.concat_eq_append, ← List.cons_append, ← List.append_assoc] at he
    exact h pre k' p' post' (List.append_inj' he rfl).1

theorem Ordered.of_const {ix : Fin N} {d : Dict (Fin N) (Fin N)} (h : ∀ e ∈ d, e.2 = ix) :
    Ordered ix d := by
  intro pre k p post he
  left
  exact h (k, p) (by rw [he]; simp)

/-- invariant of the stack -/
structure SInv (A : Fin N → List (Entry N)) (ix : Fin N) (d : Dict (Fin N) (Fin N)) : Prop where
  nodup : d.keys.Nodup
  linked : Linked A d
  ordered : Ordered ix d

/-- invariant of the search -/
structure BInv (A : Fin N → List (Entry N)) (ix : Fin N) (b : BState N) : Prop where
  stack : SInv A ix b.stack
  tmp : ∀ c ∈ b.tmp, c ∈ b.stack.keys
  dest : ∀ c, b.dest = some c → c ∈ b.stack.keys

variable {A : Fin N → List (Entry N)} {ix : Fin N}

theorem startStack_spec (A : Fin N → List (Entry N)) (ix : Fin N) (conns : List (Fin N))
    (h : ∀ c ∈ conns, some c ∈ A ix) :
    SInv A ix (startStack ix conns) ∧ ∀ c, c ∈ (startStack ix conns).keys ↔ c ∈ conns := by
  have key : ∀ (l : List (Fin N)) (d : Dict (Fin N) (Fin N)), d.keys.Nodup → (∀ e ∈ d, e.2 = ix) →
      (l.foldl (fun d c => d.set c ix) d).keys.Nodup ∧
      (∀ e ∈ l.foldl (fun d c => d.set c ix) d, e.2 = ix) ∧
      ∀ c, c ∈ Dict.keys (l.foldl (fun d c => d.set c ix) d) ↔ c ∈ d.keys ∨ c ∈ l := by
    intro l
    induction l with
    | nil => intro d h1 h2; exact ⟨h1, h2, by simp⟩
    | cons a l ih =>
      intro d h1 h2
      simp only [List.foldl_cons]
      obtain ⟨i1, i2, i3⟩ := ih (d.set a ix) (Dict.nodup_keys_set h1 _ _) (by
        intro e he
        rcases mem_set he with he | rfl
        · exact h2 e he
        · rfl)
      refine ⟨i1, i2, fun c => ?_⟩
      rw [i3, Dict.mem_keys_set]
      simp only [List.mem_cons, or_assoc]
  obtain ⟨h1, h2, h3⟩ := key conns [] (by simp) (by simp)
  have h3' : ∀ c, c ∈ (startStack ix conns).keys ↔ c ∈ conns := fun c => by
    rw [startStack, h3]; simp
  refine ⟨⟨h1, fun e he => ?_, Ordered.of_const h2⟩, h3'⟩
  rw [h2 e he]
  exact h _ ((h3' _).1 (mem_keys_of_mem he))

theorem connStep_spec {fdir : Fin N → ℤ} {cell : Fin N} (conns : List (Fin N))
    (hc : ∀ c ∈ conns, some c ∈ A cell) :
    ∀ st : Dict (Fin N) (Fin N) × Option (Fin N) × Bool, SInv A ix st.1 →
      (cell = ix ∨ cell ∈ st.1.keys) → (∀ c, st.2.1 = some c → c ∈ st.1.keys ∨ c ∈ conns) →
      SInv A ix (conns.foldl (connStep fdir cell) st).1 ∧
      (∀ c, c ∈ (conns.foldl (connStep fdir cell) st).1.keys ↔ c ∈ st.1.keys ∨ c ∈ conns) ∧
      (∀ c, (conns.foldl (connStep fdir cell) st).2.1 = some c →
        c ∈ st.1.keys ∨ c ∈ conns) := by
  induction conns with
  | nil => intro st h1 _ h3; exact ⟨h1, by simp, h3⟩
  | cons a conns ih =>
    intro st h1 h2 h3
    simp only [List.foldl_cons]
    have hc' : ∀ c ∈ conns, some c ∈ A cell := fun c h => hc c (List.mem_cons_of_mem _ h)
    by_cases ha : a ∈ st.1.keys
    · have : connStep fdir cell st a = st := by simp [connStep, ha]
      rw [this]
      obtain ⟨i1, i2, i3⟩ := ih hc' st h1 h2 (fun c h => by
        rcases h3 c h with h | h
        · exact .inl h
        · rcases List.mem_cons.1 h with rfl | h
          · exact .inl ha
          · exact .inr h)
      refine ⟨i1, fun c => ?_, fun c h => ?_⟩
      · rw [i2, List.mem_cons]
        constructor
        · rintro (h | h)
          · exact .inl h
          · exact .inr (.inr h)
        · rintro (h | rfl | h)
          · exact .inl h
          · exact .inl ha
          · exact .inr h
      · rcases i3 c h with h | h
        · exact .inl h
        · exact .inr (List.mem_cons_of_mem _ h)
    · have hs : (connStep fdir cell st a).1 = st.1 ++ [(a, cell)] := by
        simp [connStep, ha, set_new ha]
      have hk : ∀ c, c ∈ (connStep fdir cell st a).1.keys ↔ c ∈ st.1.keys ∨ c = a := by
        intro c
        rw [hs]
        simp [Dict.keys]
      have hd : ∀ c, (connStep fdir cell st a).2.1 = some c → c = a ∨ st.2.1 = some c := by
        intro c h
        simp only [connStep, ha, if_false] at h
        split at h
        · left; exact (Option.some.inj h).symm
        · right; exact h
      obtain ⟨i1, i2, i3⟩ := ih hc' (connStep fdir cell st a) (by
          refine ⟨?_, ?_, ?_⟩
          · rw [hs]
            have : (st.1 ++ [(a, cell)]).keys = st.1.keys ++ [a] := by simp [Dict.keys]
            rw [this, List.nodup_append]
            refine ⟨h1.nodup, by simp, fun x hx y hy => ?_⟩
            simp only [List.mem_singleton] at hy
            rw [hy]
            rintro rfl
            exact ha hx
          · rw [hs]
            intro e he
            rcases List.mem_append.1 he with he | he
            · exact h1.linked e he
            · simp only [List.mem_singleton] at he
              rw [he]
              exact hc a (by simp)
          · rw [hs]; exact h1.ordered.append h2) (by
          rcases h2 with h | h
          · exact .inl h
          · exact .inr ((hk _).2 (.inl h))) (fun c h => by
          rcases hd c h with rfl | h
          · exact .inl ((hk _).2 (.inr rfl))
          · rcases h3 c h with h | h
            · exact .inl ((hk _).2 (.inl h))
            · rcases List.mem_cons.1 h with rfl | h
              · exact .inl ((hk _).2 (.inr rfl))
              · exact .inr h)
      refine ⟨i1, fun c => ?_, fun c h => ?_⟩
      · rw [i2, hk, List.mem_cons, or_assoc]
      · rcases i3 c h with h | h
        · rcases (hk c).1 h with h | rfl
          · exact .inl h
          · exact .inr (by simp)
        · exact .inr (List.mem_cons_of_mem _ h)

theorem resolve_spec {fdir : Fin N → ℤ} {cell : Fin N} {conns : List (Fin N)}
    (hc : ∀ c ∈ conns, some c ∈ A cell) {d : Dict (Fin N) (Fin N)} {dest : Option (Fin N)}
    (h1 : SInv A ix d) (h2 : cell = ix ∨ cell ∈ d.keys) (h3 : ∀ c, dest = some c → c ∈ d.keys) :
    SInv A ix (resolve fdir cell conns d dest).1 ∧
    (∀ c, c ∈ (resolve fdir cell conns d dest).1.keys ↔ c ∈ d.keys ∨ c ∈ conns) ∧
    (∀ c, (resolve fdir cell conns d dest).2.1 = some c →
      c ∈ (resolve fdir cell conns d dest).1.keys) := by
  obtain ⟨i1, i2, i3⟩ := connStep_spec (A := A) (ix := ix) (fdir := fdir) conns hc
    (d, if conns.length = 1 then conns.head? else dest, true) h1 h2 (fun c h => by
      dsimp only at h ⊢
      split at h
      · exact .inr (List.mem_of_mem_head? h)
      · exact .inl (h3 c h))
  exact ⟨i1, i2, fun c h => (i2 c).2 (i3 c h)⟩

theorem searchPass_spec {fdir : Fin N → ℤ} {fc : Fin N → List (Entry N)}
    (hfc : ∀ n, fc n ⊆ A n) : ∀ (k : ℕ) (pending : List (Fin N)) (n : ℕ) (b b' : BState N),
    BInv A ix b → (∀ c ∈ pending, c ∈ b.stack.keys) →
    searchPass fdir fc k pending n b = .ok b' → BInv A ix b' := by
  intro k
  induction k with
  | zero => intro pending n b b' _ _ h; simp [searchPass] at h
  | succ k ih =>
    intro pending n b b' hb hp h
    cases pending with
    | nil =>
      simp only [searchPass, Res.ok.injEq] at h
      rw [← h]; exact hb
    | cons cell pending =>
      have hp' : ∀ c ∈ pending, c ∈ b.stack.keys := fun c h => hp c (List.mem_cons_of_mem _ h)
      simp only [searchPass] at h
      split at h
      · obtain ⟨conns, hcon, h⟩ := Res.bind_eq_ok.1 h
        have hA : ∀ c ∈ conns, some c ∈ A cell := fun c hc => hfc cell (by
          rw [reals_mem hcon]; exact List.mem_map.2 ⟨c, hc, rfl⟩)
        obtain ⟨i1, i2, i3⟩ := resolve_spec (fdir := fdir) hA hb.stack (.inr (hp cell (by simp))) hb.dest
        have hmore : ∀ c ∈ (if (resolve fdir cell conns b.stack b.dest).2.1 = none then conns else []),
            c ∈ (resolve fdir cell conns b.stack b.dest).1.keys := by
          intro c hc
          split at hc
          · exact (i2 c).2 (.inr hc)
          · cases hc
        refine ih _ _ _ _ ⟨i1, fun c hc => ?_, i3⟩ (fun c hc => ?_) h
        · rcases List.mem_append.1 hc with hc | hc
          · exact (i2 c).2 (.inl (hb.tmp c hc))
          · exact hmore c hc
        · rcases List.mem_append.1 hc with hc | hc
          · exact (i2 c).2 (.inl (hp' c hc))
          · exact hmore c hc
      · split at h
        · exact ih _ _ _ _ hb hp' h
        · refine ih _ _ _ _ ?_ ?_ h
          · split
            · exact ⟨hb.stack, hb.tmp, hb.dest⟩
            · exact hb
          · split <;> exact hp'

theorem searchLoop_spec {fdir : Fin N → ℤ} {fc : Fin N → List (Entry N)}
    (hfc : ∀ n, fc n ⊆ A n) (pf : ℕ) : ∀ (k : ℕ) (b b' : BState N), BInv A ix b →
    searchLoop fdir fc pf k b = .ok b' → BInv A ix b' ∧ (b'.dest = none → b'.sink = true) := by
  intro k
  induction k with
  | zero => intro b b' _ h; simp [searchLoop] at h
  | succ k ih =>
    intro b b' hb h
    simp only [searchLoop] at h
    obtain ⟨b1, h1, h⟩ := Res.bind_eq_ok.1 h
    have i := searchPass_spec hfc _ _ _ _ _ hb hb.tmp h1
    split at h
    · rename_i hd
      simp only [Res.ok.injEq] at h
      rw [← h]
      exact ⟨⟨i.stack, i.tmp, i.dest⟩, fun h => absurd h hd⟩
    · split at h
      · rename_i hs
        simp only [Res.ok.injEq] at h
        rw [← h]
        exact ⟨i, fun _ => hs⟩
      · exact ih _ _ i h

/-! ### The way back -/

/-- what `flow_trace` holds -/
def TInv (d : Dict (Fin N) (Fin N)) (t : Dict (Fin N) (Fin N × ℕ)) : Prop :=
  ∀ e ∈ t, (e.2.1, e.1) ∈ d

theorem traceStep_mem {dest nodeTo node : Fin N} {t : Dict (Fin N) (Fin N × ℕ)} {e : Fin N × Fin N × ℕ}
    (h : e ∈ traceStep dest nodeTo node t) : e ∈ t ∨ (e.1 = node ∧ e.2.1 = nodeTo) := by
  unfold traceStep at h
  split at h
  · rcases mem_set h with h | rfl
    · exact .inl h
    · exact .inr ⟨rfl, rfl⟩
  · split at h
    · dsimp only at h
      split at h <;> split at h
      all_goals first
        | exact .inl h
        | (rcases mem_set h with h | rfl
           · exact .inl h
           · exact .inr ⟨rfl, rfl⟩)
    · rcases mem_set h with h | rfl
      · exact .inl h
      · exact .inr ⟨rfl, rfl⟩

theorem traceStep_keys {dest nodeTo node c : Fin N} {t : Dict (Fin N) (Fin N × ℕ)}
    (h : c ∈ t.keys) : c ∈ (traceStep dest nodeTo node t).keys := by
  unfold traceStep
  split
  · exact Dict.mem_keys_set.2 (.inl h)
  · split
    · dsimp only
      split <;> split
      all_goals first
        | exact h
        | exact Dict.mem_keys_set.2 (.inl h)
    · exact Dict.mem_keys_set.2 (.inl h)

theorem traceLoop_spec {dest : Fin N} {d0 : Dict (Fin N) (Fin N)} : ∀ (k : ℕ) (nodeTo : Fin N)
    (d : Dict (Fin N) (Fin N)) (t t' : Dict (Fin N) (Fin N × ℕ)), (∀ e ∈ d, e ∈ d0) → TInv d0 t →
    traceLoop dest k nodeTo d t = .ok t' → TInv d0 t' ∧ ∀ c ∈ t.keys, c ∈ t'.keys := by
  intro k
  induction k with
  | zero => intro nodeTo d t t' _ _ h; simp [traceLoop] at h
  | succ k ih =>
    intro nodeTo d t t' hd ht h
    simp only [traceLoop] at h
    split at h
    · simp only [Res.ok.injEq] at h
      rw [← h]; exact ⟨ht, fun _ h => h⟩
    · split at h
      · rename_i node hn
        obtain ⟨i1, i2⟩ := ih _ _ _ _ (fun e he => hd e (mem_erase he)) (fun e he => by
          rcases traceStep_mem he with he | ⟨he1, he2⟩
          · exact ht e he
          · rw [he1, he2]; exact hd _ (Dict.mem_of_get? hn)) h
        exact ⟨i1, fun c hc => i2 c (traceStep_keys hc)⟩
      · split at h
        · exact ih _ _ _ _ hd ht h
        · cases h

/-- after one step of the way back the next cell is in the trace, at most one step further -/
theorem traceStep_get {dest nodeTo node : Fin N} {t : Dict (Fin N) (Fin N × ℕ)} {m : ℕ}
    (h : nodeTo = dest ∨ ∃ u d, t.get? nodeTo = some (u, d) ∧ d + 1 ≤ m) (hm : m < 1000000) :
    ∃ u d, (traceStep dest nodeTo node t).get? node = some (u, d) ∧ d ≤ m := by
  unfold traceStep
  by_cases hnd : nodeTo = dest
  · rw [if_pos hnd]
    exact ⟨nodeTo, 0, Dict.get?_set_self _ _ _, Nat.zero_le _⟩
  · rw [if_neg hnd]
    rcases h with h | ⟨u, d, h1, h2⟩
    · exact absurd h hnd
    · rw [h1]
      dsimp only
      cases hg : t.get? node with
      | none =>
        dsimp only
        rw [if_pos (by omega)]
        exact ⟨nodeTo, d + 1, Dict.get?_set_self _ _ _, h2⟩
      | some x =>
        obtain ⟨u', d'⟩ := x
        dsimp only
        by_cases hlt : d + 1 < d'
        · rw [if_pos hlt]
          exact ⟨nodeTo, d + 1, Dict.get?_set_self _ _ _, h2⟩
        · rw [if_neg hlt]
          exact ⟨u', d', hg, by omega⟩

/-- the way back from a stored key comes to `ix` -/
theorem traceLoop_reaches {dest : Fin N} : ∀ (k : ℕ) (nodeTo p : Fin N)
    (pre post : Dict (Fin N) (Fin N)) (t t' : Dict (Fin N) (Fin N × ℕ)) (m : ℕ),
    (pre ++ (nodeTo, p) :: post).keys.Nodup → Ordered ix (pre ++ [(nodeTo, p)]) →
    (nodeTo = dest ∨ ∃ u d, t.get? nodeTo = some (u, d) ∧ d + 1 ≤ m) →
    m + pre.length < 1000000 →
    traceLoop dest k nodeTo (pre ++ (nodeTo, p) :: post) t = .ok t' → ix ∈ t'.keys := by
  intro k
  induction k with
  | zero => intro nodeTo p pre post t t' m _ _ _ _ h; simp [traceLoop] at h
  | succ k ih =>
    intro nodeTo p pre post t t' m hn ho ht hm h
    have hmem : (nodeTo, p) ∈ pre ++ (nodeTo, p) :: post := by simp
    have hpre : nodeTo ∉ Dict.keys pre := by
      intro hin
      simp only [Dict.keys, List.map_append, List.map_cons] at hn
      exact (List.nodup_append.1 hn).2.2 _ hin _ (by simp) rfl
    simp only [traceLoop] at h
    rw [if_neg (by simp), Dict.get?_of_mem hn hmem] at h
    dsimp only at h
    rw [erase_mid hpre] at h
    obtain ⟨u, d, hg, hd⟩ := traceStep_get (node := p) ht (by omega)
    rcases ho pre nodeTo p [] rfl with rfl | hp
    · refine (traceLoop_spec (d0 := pre ++ post ++ (t'.map fun e => (e.2.1, e.1)) ++
        ((traceStep dest nodeTo p t).map fun e => (e.2.1, e.1))) k p (pre ++ post) _ _ ?_ ?_ h).2 _
        (Dict.mem_keys_iff.2 ⟨_, hg⟩)
      · intro e he; simp only [List.mem_append] at he ⊢; tauto
      · intro e he
        simp only [List.mem_append]
        right
        exact List.mem_map.2 ⟨e, he, rfl⟩
    · obtain ⟨q, hq⟩ := exists_of_mem_keys hp
      obtain ⟨pre1, pre2, rfl⟩ := List.append_of_mem hq
      have hnd : (Dict.keys (pre1 ++ (p, q) :: pre2 ++ post)).Nodup := by
        simp only [Dict.keys, List.map_append, List.map_cons] at hn ⊢
        exact hn.sublist (List.Sublist.append_left (List.sublist_cons_self _ _) _)
      rw [List.append_assoc, List.cons_append] at h hnd
      refine ih p q pre1 (pre2 ++ post) _ _ (m + 1) hnd ?_ (.inr ⟨u, d, hg, by omega⟩) ?_ h
      · intro a x y z he
        rcases List.eq_nil_or_concat z with rfl | ⟨z', w, rfl⟩
        · have := List.append_inj' he rfl
          obtain ⟨h1, h2⟩ := this
          simp only [List.cons.injEq, Prod.mk.injEq, and_true] at h2
          refine ho a x y (pre2 ++ [(nodeTo, p)]) ?_
          rw [← h1, ← h2.1, ← h2.2]
          simp
        · rw [List.concat_eq_append, ← List.cons_append, ← List.append_assoc] at he
          refine ho a x y (z' ++ ((p, q) :: pre2 ++ [(nodeTo, p)])) ?_
          rw [(List.append_inj' he rfl).1]
          simp
      · simp only [List.length_append, List.length_cons] at hm
        omega

theorem applyTrace_spec (t : Dict (Fin N) (Fin N × ℕ)) : ∀ (f : Fin N → ℤ) (n : Fin N),
    (n ∉ t.keys ∧ applyTrace t f n = f n) ∨
    ∃ e ∈ t, e.1 = n ∧ applyTrace t f n = ((e.2.1 : ℕ) : ℤ) := by
  induction t with
  | nil => intro f n; left; exact ⟨by simp, rfl⟩
  | cons e t ih =>
    intro f n
    have he : applyTrace (e :: t) f = applyTrace t (update f e.1 ((e.2.1 : ℕ) : ℤ)) := rfl
    rw [he]
    rcases ih (update f e.1 ((e.2.1 : ℕ) : ℤ)) n with ⟨h1, h2⟩ | ⟨e', h1, h2⟩
    · rw [h2]
      by_cases hn : e.1 = n
      · right
        exact ⟨e, by simp, hn, by rw [hn]; simp⟩
      · left
        refine ⟨?_, update_of_ne (Ne.symm hn) _ _⟩
        simp only [Dict.keys, List.map_cons, List.mem_cons, not_or] at h1 ⊢
        exact ⟨Ne.symm hn, h1⟩
    · right
      exact ⟨e', List.mem_cons_of_mem _ h1, h2⟩

theorem markSinks_spec (d : Dict (Fin N) (Fin N)) (f : Fin N → ℤ) (n : Fin N) :
    markSinks ix d f n = if n = ix ∨ n ∈ d.keys then -2 else f n := by
  unfold markSinks
  generalize d.keys = l
  have : ∀ (l : List (Fin N)) (g : Fin N → ℤ),
      l.foldl (fun f c => update f c (-2)) g n = if n ∈ l then -2 else g n := by
    intro l
    induction l with
    | nil => intro g; simp
    | cons a l ih =>
      intro g
      simp only [List.foldl_cons]
      rw [ih]
      by_cases h1 : n ∈ l
      · simp [h1]
      · by_cases h2 : n = a
        · subst h2; simp
        · simp [h1, h2]
  rw [this]
  by_cases h1 : n = ix
  · subst h1; simp
  · simp [h1]

/-! ### What a search does -/

theorem search_spec {fuel : ℕ} {fdir f' : Fin N → ℤ} {fc : Fin N → List (Entry N)}
    {conns : List (Fin N)} (hfc : ∀ n, fc n ⊆ A n) (hc : ∀ c ∈ conns, some c ∈ A ix)
    (h : search fuel fdir fc ix conns = .ok f') :
    (∀ n, f' n = fdir n ∨ ((n = ix ∨ ∃ p, some n ∈ A p) ∧
      (f' n = -2 ∨ ∃ m, some m ∈ A n ∧ f' n = ((m : ℕ) : ℤ)))) ∧
    (N < 1000000 → f' ix = -2 ∨ ∃ m, some m ∈ A ix ∧ f' ix = ((m : ℕ) : ℤ)) := by
  unfold search at h
  obtain ⟨b, hb, h⟩ := Res.bind_eq_ok.1 h
  obtain ⟨hs, hk⟩ := startStack_spec A ix conns hc
  obtain ⟨i, hds⟩ := searchLoop_spec (A := A) (ix := ix) hfc _ _ _ _
    ⟨hs, fun c hc => (hk c).2 hc, by simp⟩ hb
  split at h
  · simp only [Res.ok.injEq] at h
    subst h
    refine ⟨fun n => ?_, fun _ => ?_⟩
    · rw [markSinks_spec]
      split
      · rename_i hn
        right
        refine ⟨?_, .inl rfl⟩
        rcases hn with hn | hn
        · exact .inl hn
        · obtain ⟨p, hp⟩ := exists_of_mem_keys hn
          exact .inr ⟨p, i.stack.linked _ hp⟩
      · exact .inl rfl
    · left; rw [markSinks_spec]; simp
  · rename_i hsink
    split at h
    · rename_i hd
      exact absurd (hds hd) hsink
    · rename_i dest hd
      split at h
      · cases h
      · rename_i first hf
        obtain ⟨t, ht, rfl⟩ := Res.map_eq_ok.1 h
        have hti : TInv b.stack t := (traceLoop_spec _ _ _ _ _ (fun _ h => h) (by
          intro e he
          simp only [List.mem_singleton] at he
          subst he
          exact Dict.mem_of_get? hf) ht).1
        refine ⟨fun n => ?_, fun hN => ?_⟩
        · rcases applyTrace_spec t fdir n with ⟨_, h⟩ | ⟨e, he, h1, h2⟩
          · exact .inl h
          · right
            have hin := hti e he
            refine ⟨?_, .inr ⟨e.2.1, ?_, h2⟩⟩
            · obtain ⟨pre, post, hpp⟩ := List.append_of_mem hin
              rcases i.stack.ordered pre e.2.1 e.1 post hpp with h | h
              · exact .inl (h1 ▸ h)
              · right
                obtain ⟨p, hp⟩ := exists_of_mem_keys h
                exact ⟨p, h1 ▸ i.stack.linked _ (by rw [hpp]; exact List.mem_append_left _ hp)⟩
            · rw [← h1]; exact i.stack.linked _ hin
        · have hx : ix ∈ t.keys := by
            obtain ⟨pre, post, hpp⟩ := List.append_of_mem (Dict.mem_of_get? hf)
            have hlen : b.stack.keys.length ≤ N := by
              simpa using i.stack.nodup.length_le_card
            have hnd := i.stack.nodup
            have ho := i.stack.ordered
            rw [hpp] at ht hnd hlen ho
            refine traceLoop_reaches _ dest first pre post _ t 0 hnd ?_ (.inl rfl) ?_ ht
            · intro a x y z he
              refine ho a x y (z ++ post) ?_
              have := congrArg (· ++ post) he
              simpa using this
            · simp only [Dict.keys, List.length_map, List.length_append, List.length_cons] at hlen
              omega
          rcases applyTrace_spec t fdir ix with ⟨h, _⟩ | ⟨e, he, h1, h2⟩
          · exact absurd hx h
          · right
            exact ⟨e.2.1, h1 ▸ i.stack.linked _ (hti e he), h2⟩

end Dany.Dirs
