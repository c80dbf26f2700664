import Verif.Fail.Interrupt

/-!
# C108: negative terminal cell numbers other than -1 and -2
-/

namespace Dany.Fail

open Function Dirs Flow

variable {N : ℕ} {K : Type*}

/-- the same directions, but a cell flowing to itself may be written as a number counted from the end -/
def Same (f g : Fin N → ℤ) : Prop :=
  ∀ c, f c = g c ∨ (g c = ((c : ℕ) : ℤ) ∧ f c = ((c : ℕ) : ℤ) - N ∧ f c ≤ -3)

theorem Same.refl (f : Fin N → ℤ) : Same f f := fun _ => .inl rfl

theorem Same.update {f g : Fin N → ℤ} (h : Same f g) (c : Fin N) (v : ℤ) : Same (update f c v) (update g c v) := by
  intro n
  by_cases hn : n = c
  · subst hn; left; simp
  · rw [update_of_ne hn, update_of_ne hn]; exact h n

theorem Same.open_iff {f g : Fin N → ℤ} (h : Same f g) (c : Fin N) : f c = -1 ↔ g c = -1 := by
  rcases h c with h | ⟨h1, h2, h3⟩
  · rw [h]
  · constructor <;> intro h <;> omega

theorem Same.sink_iff {f g : Fin N → ℤ} (h : Same f g) (c : Fin N) : f c = -2 ↔ g c = -2 := by
  rcases h c with h | ⟨h1, h2, h3⟩
  · rw [h]
  · constructor <;> intro h <;> omega

theorem connStep_same {f g : Fin N → ℤ} (h : Same f g) : connStep f = connStep g := by
  funext cell st conn
  unfold connStep
  simp only [ne_eq, h.open_iff conn, h.sink_iff conn]

theorem searchPass_same {f g : Fin N → ℤ} (h : Same f g) (fc : Fin N → List (Entry N)) (k : ℕ) (pending : List (Fin N))
    (n : ℕ) (b : BState N) : searchPass f fc k pending n b = searchPass g fc k pending n b := by
  have hr : resolve f = resolve g := by
    funext cell conns stack dest
    unfold resolve
    rw [connStep_same h]
  induction k generalizing pending n b with
  | zero => rfl
  | succ k ih =>
    cases pending with
    | nil => rfl
    | cons cell pending =>
      rw [searchPass, searchPass, hr]
      simp only [ih]

theorem searchLoop_same {f g : Fin N → ℤ} (h : Same f g) (fc : Fin N → List (Entry N)) (pfuel k : ℕ) (b : BState N) :
    searchLoop f fc pfuel k b = searchLoop g fc pfuel k b := by
  induction k generalizing b with
  | zero => rfl
  | succ k ih =>
    rw [searchLoop, searchLoop, searchPass_same h]
    simp only [ih]

/-- equal outcomes up to `Rel` -/
def ResRel {α : Type*} (Rel : α → α → Prop) : Res α → Res α → Prop
  | .ok a, .ok b => Rel a b
  | .err e, .err e' => e = e'
  | .hang, .hang => True
  | _, _ => False

theorem ResRel.bind {α β : Type*} {R : α → α → Prop} {S : β → β → Prop} {x y : Res α} {f g : α → Res β}
    (h : ResRel R x y) (hf : ∀ a b, R a b → ResRel S (f a) (g b)) : ResRel S (x.bind f) (y.bind g) := by
  cases x <;> cases y <;> simp [ResRel] at h ⊢
  · exact hf _ _ h
  · exact h

theorem ResRel.of_eq {α β : Type*} {S : β → β → Prop} {x : Res α} {f g : α → Res β}
    (hf : ∀ a, ResRel S (f a) (g a)) : ResRel S (x.bind f) (x.bind g) := by
  cases x <;> simp [ResRel]
  exact hf _

theorem ResRel.map_of_eq {α β : Type*} {S : β → β → Prop} {x : Res α} {f g : α → β}
    (hf : ∀ a, S (f a) (g a)) : ResRel S (x.map f) (x.map g) := by
  cases x <;> simp [ResRel]
  exact hf _

theorem ResRel.map {α β : Type*} {R : α → α → Prop} {S : β → β → Prop} {x y : Res α} {f g : α → β}
    (h : ResRel R x y) (hf : ∀ a b, R a b → S (f a) (g b)) : ResRel S (x.map f) (y.map g) := by
  cases x <;> cases y <;> simp [ResRel] at h ⊢
  · exact hf _ _ h
  · exact h

theorem markSinks_same {f g : Fin N → ℤ} (h : Same f g) (ix : Fin N) (stack : Dict (Fin N) (Fin N)) :
    Same (markSinks ix stack f) (markSinks ix stack g) := by
  unfold markSinks
  generalize stack.keys = l
  have h0 := h.update ix (-2)
  clear h
  generalize update f ix (-2) = f at h0 ⊢
  generalize update g ix (-2) = g at h0 ⊢
  induction l generalizing f g with
  | nil => exact h0
  | cons c l ih => exact ih _ _ (h0.update c (-2))

theorem applyTrace_same {f g : Fin N → ℤ} (h : Same f g) (trace : Dict (Fin N) (Fin N × ℕ)) :
    Same (applyTrace trace f) (applyTrace trace g) := by
  unfold applyTrace
  induction trace generalizing f g with
  | nil => exact h
  | cons e l ih => exact ih (h.update e.1 _)

theorem search_same {f g : Fin N → ℤ} (h : Same f g) (fuel : ℕ) (fc : Fin N → List (Entry N)) (ix : Fin N)
    (conns : List (Fin N)) : ResRel Same (search fuel f fc ix conns) (search fuel g fc ix conns) := by
  unfold search
  rw [searchLoop_same h]
  refine ResRel.of_eq fun b => ?_
  by_cases hs : b.sink = true
  · rw [if_pos hs, if_pos hs]; exact markSinks_same h _ _
  · rw [if_neg hs, if_neg hs]
    cases b.dest with
    | none => exact h
    | some dest =>
      dsimp only
      cases b.stack.get? dest with
      | none => rfl
      | some first => exact ResRel.map_of_eq fun t => applyTrace_same h t

/-- states with the same directions -/
def SameState (s t : State N) : Prop := Same s.fdir t.fdir ∧ s.fc = t.fc

theorem choose_same {s t : State N} (h : SameState s t) (fuel : ℕ) (ix : Fin N) (cont : Bool) :
    ResRel SameState (choose fuel s ix cont) (choose fuel t ix cont) := by
  obtain ⟨f, fc⟩ := s
  obtain ⟨g, fc'⟩ := t
  obtain ⟨h, rfl⟩ := h
  dsimp only at h
  unfold choose
  dsimp only
  have hl : ∀ l : List (Entry N), ResRel SameState
      ((reals l).bind fun conns => (search fuel f fc ix conns).map fun f => (⟨f, fc⟩ : State N))
      ((reals l).bind fun conns => (search fuel g fc ix conns).map fun g => (⟨g, fc⟩ : State N)) := fun l =>
    ResRel.of_eq fun conns => (search_same h fuel fc ix conns).map fun a b hab => ⟨hab, rfl⟩
  have hu : ∀ a : Entry N, ResRel SameState (.ok ⟨update f ix (code a), fc⟩) (.ok ⟨update g ix (code a), fc⟩) :=
    fun a => ⟨h.update ix _, rfl⟩
  split
  · exact hu _
  · exact hu _
  · exact hu _
  · exact hl _

theorem cellStep_same {r r' : Res (State N)} (h : ResRel SameState r r') (frow : Fin N → List (Entry N)) (fuel : ℕ)
    (valid : Fin N → Bool) (ix : Fin N) :
    ResRel SameState (cellStep frow fuel valid r ix) (cellStep frow fuel valid r' ix) := by
  unfold cellStep
  refine h.bind fun s t hst => ?_
  obtain ⟨f, fc⟩ := s
  obtain ⟨g, fc'⟩ := t
  obtain ⟨h, rfl⟩ := hst
  dsimp only at h ⊢
  by_cases h1 : f ix = -1
  · have h1' := (h.open_iff ix).1 h1
    rw [if_neg (not_not.2 h1), if_neg (not_not.2 h1')]
    split
    · exact ⟨h.update ix _, rfl⟩
    · split
      · refine ResRel.of_eq fun l => ?_
        have hfil : l.filter (fun t => f t ≠ ((ix : ℕ) : ℤ)) = l.filter (fun t => g t ≠ ((ix : ℕ) : ℤ)) := by
          refine List.filter_congr fun t _ => ?_
          have : f t = ((ix : ℕ) : ℤ) ↔ g t = ((ix : ℕ) : ℤ) := by
            rcases h t with h | ⟨e1, e2, e3⟩
            · rw [h]
            · constructor <;> intro he
              · omega
              · have : t = ix := Fin.ext (by omega)
                subst this
                omega
          simp [this]
        rw [hfil]
        split
        · exact ResRel.of_eq fun c => choose_same (s := ⟨f, _⟩) (t := ⟨g, _⟩) ⟨h, rfl⟩ fuel ix c
        · exact choose_same (s := ⟨f, _⟩) (t := ⟨g, _⟩) ⟨h, rfl⟩ fuel ix false
      · exact choose_same (s := ⟨f, _⟩) (t := ⟨g, _⟩) ⟨h, rfl⟩ fuel ix false
  · have h1' := fun e => h1 ((h.open_iff ix).2 e)
    rw [if_pos h1, if_pos h1']
    exact ⟨h, rfl⟩

/-- a cell number, counted from the end if negative -/
def fromEnd (N : ℕ) (t : ℤ) : ℤ := if t < 0 then t + N else t

theorem setTerminals_same {f g : Fin N → ℤ} (h : Same f g) (l : List ℤ) (hl : ∀ t ∈ l, -(N : ℤ) ≤ t ∧ t ≠ -1 ∧ t ≠ -2) :
    ResRel Same (setTerminals l f) (setTerminals (l.map (fromEnd N)) g) := by
  induction l generalizing f g with
  | nil => exact h
  | cons t l ih =>
    rw [List.map_cons, setTerminals, setTerminals]
    have hn := hl t (by simp)
    by_cases h0 : t < 0
    · have hr := hn.1
      · have e1 : pyIndex N t = .ok ⟨((N : ℤ) + t).toNat, by omega⟩ := by
          unfold pyIndex
          rw [dif_neg (by omega), dif_pos (by omega)]
        have e2 : pyIndex N (fromEnd N t) = .ok ⟨((N : ℤ) + t).toNat, by omega⟩ := by
          unfold pyIndex fromEnd
          rw [if_pos h0, dif_pos (by omega)]
          congr 2
          omega
        rw [e1, e2]
        refine ih (fun n => ?_) fun u hu => hl u (by simp [hu])
        by_cases hc : n = ⟨((N : ℤ) + t).toNat, by omega⟩
        · right
          rw [hc]
          simp only [update_self, fromEnd, if_pos h0]
          omega
        · rw [update_of_ne hc, update_of_ne hc]; exact h n
    · have : fromEnd N t = t := by unfold fromEnd; rw [if_neg h0]
      rw [this]
      exact ResRel.of_eq fun c => ih (h.update c t) fun u hu => hl u (by simp [hu])

theorem foldl_same (frow : Fin N → List (Entry N)) (fuel : ℕ) (valid : Fin N → Bool) (l : List (Fin N))
    {r r' : Res (State N)} (h : ResRel SameState r r') :
    ResRel SameState (l.foldl (cellStep frow fuel valid) r) (l.foldl (cellStep frow fuel valid) r') := by
  induction l generalizing r r' with
  | nil => exact h
  | cons c l ih => exact ih (cellStep_same h frow fuel valid c)

variable [Field K] [LinearOrder K]

/-- **C108, all numbers but -1 and -2 (partial).**  Numbers from `-N` to `-3` count from the end: the call fails if and
only if it fails for the numbers counted from the start, and then alike; otherwise the directions are the same, except
that some terminal cells are written as the number counted from the end, which as an index means the same cell. -/
theorem C108_from_end_partial (fuel : ℕ) (G : Geo N K) (dem : Fin N → Option K) (big : K)
    (rows : Fin N → List (Entry N)) (thr : K) (l : List ℤ) (hl : ∀ t ∈ l, -(N : ℤ) ≤ t ∧ t ≠ -1 ∧ t ≠ -2) :
    (∀ e, flowDirections fuel G dem big rows thr l = .err e ↔
      flowDirections fuel G dem big rows thr (l.map (fromEnd N)) = .err e) ∧
    (flowDirections fuel G dem big rows thr l = .hang ↔
      flowDirections fuel G dem big rows thr (l.map (fromEnd N)) = .hang) ∧
    ∀ f g, flowDirections fuel G dem big rows thr l = .ok f →
      flowDirections fuel G dem big rows thr (l.map (fromEnd N)) = .ok g →
        ∀ c, f c = g c ∨ (g c = ((c : ℕ) : ℤ) ∧ f c = ((c : ℕ) : ℤ) - N) := by
  have h : ResRel Same (flowDirections fuel G dem big rows thr l)
      (flowDirections fuel G dem big rows thr (l.map (fromEnd N))) := by
    unfold flowDirections
    refine ResRel.of_eq fun f0 => (setTerminals_same (Same.refl f0) l hl).bind fun f1 g1 h1 => ResRel.of_eq fun fc => ?_
    exact (foldl_same _ _ _ _ (show ResRel SameState (.ok ⟨f1, fc⟩) (.ok ⟨g1, fc⟩) from ⟨h1, rfl⟩)).map
      fun a b hab => hab.1
  generalize flowDirections fuel G dem big rows thr l = x at h ⊢
  generalize flowDirections fuel G dem big rows thr (l.map (fromEnd N)) = y at h ⊢
  cases x <;> cases y <;> simp [ResRel] at h ⊢
  · intro c
    rcases h c with h | ⟨h1, h2, _⟩
    · exact .inl h
    · exact .inr ⟨h1, h2⟩
  · subst h; simp

/-- and read as indices they name the same receivers, so accumulated areas, for instance, are the same -/
theorem C108_receivers_partial {fuel : ℕ} {G : Geo N K} {dem : Fin N → Option K} {big : K}
    {rows : Fin N → List (Entry N)} {thr : K} {l : List ℤ} (hl : ∀ t ∈ l, -(N : ℤ) ≤ t ∧ t ≠ -1 ∧ t ≠ -2)
    {f g : Fin N → ℤ} (hf : flowDirections fuel G dem big rows thr l = .ok f)
    (hg : flowDirections fuel G dem big rows thr (l.map (fromEnd N)) = .ok g) (d : Fin N → Fin N) :
    Resolves f d ↔ Resolves g d := by
  have h := (C108_from_end_partial fuel G dem big rows thr l hl).2.2 f g hf hg
  have hiff : ∀ n, ((0 ≤ f n ∧ ((d n : ℕ) : ℤ) = f n) ∨ (f n < 0 ∧ ((d n : ℕ) : ℤ) = N + f n)) ↔
      ((0 ≤ g n ∧ ((d n : ℕ) : ℤ) = g n) ∨ (g n < 0 ∧ ((d n : ℕ) : ℤ) = N + g n)) := by
    intro n
    have := n.isLt
    rcases h n with h | ⟨h1, h2⟩
    · rw [h]
    · omega
  exact forall_congr' hiff

/-- a row of four cells, the second of which is terminal: counted from the end it is -3 -/
def line4 : Fd 4 ℚ := ⟨⟨![0, 1, 2, 3], fun _ => 0, root, id⟩, ![some 4, some 3, some 2, some 1], Dirs.big,
  table ![[1], [0, 2], [1, 3], [2]], fun _ => 1, none, none, none⟩

example : (∀ t ∈ [(-3 : ℤ)], -((4 : ℕ) : ℤ) ≤ t ∧ t ≠ -1 ∧ t ≠ -2) ∧
    (Fd.dirs 20 .other thr [.num (-3)]).res line4 = .ok ![1, -3, 3, 3] ∧
    (Fd.dirs 20 .other thr [.num 1]).res line4 = .ok ![1, 1, 3, 3] ∧
    (Fd.dirs 20 .other thr []).res line4 = .ok ![1, 2, 3, 3] := by
  refine ⟨by decide, by decide +kernel, by decide +kernel, by decide +kernel⟩

end Dany.Fail
