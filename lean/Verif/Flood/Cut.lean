import Verif.Flood.Mask

/-!
# C210: filling a part of the grid

Cell `a` of the part is cell `ι a` of the whole.
-/

namespace Dany.Flood

variable {N M : ℕ} {V : Type*} [LinearOrder V]

/-- `g'` is a part of `g`: the same neighbours, and cells that have neighbours outside the part, or lie on the edge of the
whole, are on its edge. -/
structure Cut (ι : Fin M → Fin N) (g : Grid N) (g' : Grid M) : Prop where
  adj : ∀ a b, Adj g'.nbr a b ↔ Adj g.nbr (ι a) (ι b)
  border : ∀ a n, Adj g.nbr (ι a) n → (∀ b, ι b ≠ n) → Edge.OnEdge g'.iverts a
  edge : ∀ a, Edge.OnEdge g.iverts (ι a) → Edge.OnEdge g'.iverts a

variable {ι : Fin M → Fin N} {g : Grid N} {g' : Grid M} {dem : Fin N → V} {dem' : Fin M → V}

/-- connected cells stay connected -/
private theorem cut_reach (hC : Cut ι g g') (hsym : SymmNbr g.nbr) {n : Fin N}
    (h : Reach g.nbr (Edge.OnEdge g.iverts) n) : ∀ a, ι a = n → Reach g'.nbr (Edge.OnEdge g'.iverts) a := by
  induction h with
  | seed hs => rintro a rfl; exact .seed (hC.edge a hs)
  | @step c n _ ha ih =>
    rintro a rfl
    by_cases hin : ∃ b, ι b = c
    · obtain ⟨b, rfl⟩ := hin
      exact .step (ih b rfl) ((hC.adj _ _).2 ha)
    · exact .seed (hC.border a c (hsym _ _ ha) fun b hb => hin ⟨b, hb⟩)

/-- a path of the whole, cut at the border -/
private theorem cut_top (hC : Cut ι g g') (hsym : SymmNbr g.nbr) (hdem : ∀ a, dem' a = dem (ι a)) {n : Fin N} {v : V}
    (h : PathTop g.nbr dem (Edge.OnEdge g.iverts) n v) :
    ∀ a, ι a = n → ∃ w ≤ v, PathTop g'.nbr dem' (Edge.OnEdge g'.iverts) a w := by
  induction h with
  | seed hs => rintro a rfl; exact ⟨_, (hdem a).le, .seed (hC.edge a hs)⟩
  | @step c n v _ ha ih =>
    rintro a rfl
    by_cases hin : ∃ b, ι b = c
    · obtain ⟨b, rfl⟩ := hin
      obtain ⟨w, hw, hp⟩ := ih b rfl
      exact ⟨_, max_le_max hw (hdem a).le, .step hp ((hC.adj _ _).2 ha)⟩
    · exact ⟨_, (hdem a).le.trans (le_max_right _ _),
        .seed (hC.border a c (hsym _ _ ha) fun b hb => hin ⟨b, hb⟩)⟩

private theorem cut_rise {raise : V → V} (hmono : Monotone raise) (hC : Cut ι g g') (hdem : ∀ a, dem' a ≤ dem (ι a))
    {n : Fin N} {v : V} (h : PathRise raise g.nbr dem (Edge.OnEdge g.iverts) n v) :
    ∀ a, ι a = n → ∃ w ≤ v, PathRise raise g'.nbr dem' (Edge.OnEdge g'.iverts) a w := by
  induction h with
  | seed hs => rintro a rfl; exact ⟨_, hdem a, .seed (hC.edge a hs)⟩
  | @step c n v _ ha ih =>
    rintro a rfl
    by_cases hin : ∃ b, ι b = c
    · obtain ⟨b, rfl⟩ := hin
      obtain ⟨w, hw, hp⟩ := ih b rfl
      exact ⟨_, max_le_max (hdem a) (hmono hw), .step hp ((hC.adj _ _).2 ha)⟩
    · exact ⟨_, (hdem a).trans (le_max_left _ _), .seed (hC.border a c ha fun b hb => hin ⟨b, hb⟩)⟩

/-- a path of the part is a path of the whole, or starts high -/
private theorem top_back (hC : Cut ι g g') (hdem : ∀ a, dem' a = dem (ι a)) {t : V}
    (hhigh : ∀ b, Edge.OnEdge g'.iverts b → ¬ Edge.OnEdge g.iverts (ι b) → t ≤ dem (ι b)) {a : Fin M} {v : V}
    (h : PathTop g'.nbr dem' (Edge.OnEdge g'.iverts) a v) :
    PathTop g.nbr dem (Edge.OnEdge g.iverts) (ι a) v ∨ t ≤ v := by
  induction h with
  | @seed s hs =>
    rw [hdem]
    by_cases ho : Edge.OnEdge g.iverts (ι s)
    · exact .inl (.seed ho)
    · exact .inr (hhigh s hs ho)
  | step _ ha ih =>
    rcases ih with ih | ih
    · rw [hdem]; exact .inl (.step ih ((hC.adj _ _).1 ha))
    · exact .inr (ih.trans (le_max_left _ _))

private theorem rise_back {raise : V → V} (hinf : ∀ x, x ≤ raise x) (hC : Cut ι g g') (hdem : ∀ a, dem' a = dem (ι a))
    {t : V} (hhigh : ∀ b, Edge.OnEdge g'.iverts b → ¬ Edge.OnEdge g.iverts (ι b) → t ≤ dem (ι b)) {a : Fin M} {v : V}
    (h : PathRise raise g'.nbr dem' (Edge.OnEdge g'.iverts) a v) :
    PathRise raise g.nbr dem (Edge.OnEdge g.iverts) (ι a) v ∨ t ≤ v := by
  induction h with
  | @seed s hs =>
    rw [hdem]
    by_cases ho : Edge.OnEdge g.iverts (ι s)
    · exact .inl (.seed ho)
    · exact .inr (hhigh s hs ho)
  | step _ ha ih =>
    rcases ih with ih | ih
    · rw [hdem]; exact .inl (.step ih ((hC.adj _ _).1 ha))
    · exact .inr (ih.trans ((hinf _).trans (le_max_right _ _)))

section

variable {fuel fuel' : ℕ} {raise : V → V} {flood : V} {out : Fin N → V} {out' : Fin M → V} {method : String}

/-- **C210** ('complete'): filling the part raises no cell higher than filling the whole, and as high if the part's border
inside the whole is no lower than that. -/
theorem C210_complete (hC : Cut ι g g') (hsym : SymmNbr g.nbr) (hdem : ∀ a, dem' a = dem (ι a))
    (hmeth : method.toLower = "complete")
    (h : fillSinks fuel raise flood g dem none method = .ok out)
    (h' : fillSinks fuel' raise flood g' dem' none method = .ok out') {a : Fin M}
    (hn : Reach g.nbr (Edge.OnEdge g.iverts) (ι a)) :
    out' a ≤ out (ι a) ∧
    ((∀ b, Edge.OnEdge g'.iverts b → ¬ Edge.OnEdge g.iverts (ι b) → out (ι a) ≤ dem (ι b)) → out' a = out (ι a)) := by
  have s1 := C06_spill hmeth h (ι a) hn
  have s2 := C06_spill hmeth h' a (cut_reach hC hsym hn a rfl)
  have hle : out' a ≤ out (ι a) := by
    obtain ⟨w, hw, hp⟩ := cut_top hC hsym hdem s1.1 a rfl
    exact (s2.2 hp).trans hw
  refine ⟨hle, fun hhigh => le_antisymm hle ?_⟩
  rcases top_back hC hdem hhigh s2.1 with hp | hp
  · exact s1.2 hp
  · exact hp

/-- **C210** ('drain'). -/
theorem C210_drain (hC : Cut ι g g') (hdem : ∀ a, dem' a = dem (ι a)) (hinf : ∀ x, x ≤ raise x) (hmono : Monotone raise)
    (hfl : ∀ n, dem n ≤ flood) (heff : effective (none : Option (Fin N → Bool)) method = .drain)
    (h : fillSinks fuel raise flood g dem none method = .ok out)
    (h' : fillSinks fuel' raise flood g' dem' none method = .ok out') (a : Fin M) :
    out' a ≤ out (ι a) ∧
    ((∀ b, Edge.OnEdge g'.iverts b → ¬ Edge.OnEdge g.iverts (ι b) → out (ι a) ≤ dem (ι b)) → out' a = out (ι a)) := by
  have s1 := C10_drain_least hinf hmono hfl heff h (ι a)
  have s2 := C10_drain_least (N := M) hinf hmono (fun b => (hdem b).le.trans (hfl _)) (by simpa [effective] using heff) h' a
  have hle : out' a ≤ out (ι a) := by
    rcases s1.1 with e | hp
    · rw [e]; exact s2.2 (.inl rfl)
    · obtain ⟨w, hw, hp⟩ := cut_rise hmono hC (fun b => (hdem b).le) hp a rfl
      exact (s2.2 (.inr hp)).trans hw
  refine ⟨hle, fun hhigh => le_antisymm hle ?_⟩
  rcases s2.1 with e | hp
  · rw [e]; exact s1.2 (.inl rfl)
  · rcases rise_back hinf hC hdem hhigh hp with hp | hp
    · exact s1.2 (.inr hp)
    · exact hp

/-- **C210** ('priority'): the part is raised at most by `M` increments over the whole. -/
theorem C210_priority (hC : Cut ι g g') (hsym : SymmNbr g.nbr) (hdem : ∀ a, dem' a = dem (ι a))
    (hinf : ∀ x, x ≤ raise x) (hmono : Monotone raise) (hmeth : method.toLower = "priority")
    (h : fillSinks fuel raise flood g dem none method = .ok out)
    (h' : fillSinks fuel' raise flood g' dem' none method = .ok out') {a : Fin M}
    (hn : Reach g.nbr (Edge.OnEdge g.iverts) (ι a)) : out' a ≤ raise^[M] (out (ι a)) := by
  obtain ⟨w, s1, hle, -⟩ := C09_overfill hinf hmono hmeth h (ι a) hn
  obtain ⟨w', s2, -, hle'⟩ := C09_overfill hinf hmono hmeth h' a (cut_reach hC hsym hn a rfl)
  obtain ⟨x, hx, hp⟩ := cut_top hC hsym hdem s1.1 a rfl
  exact hle'.trans (hmono.iterate M ((s2.2 hp).trans (hx.trans hle)))

omit [LinearOrder V] in
private theorem cut_drains {down : V → V → Prop} (hC : Cut ι g g') {f : Fin N → V} {n : Fin N}
    (h : Drains down g.nbr f (Edge.OnEdge g.iverts) n) :
    ∀ a, ι a = n → Drains down g'.nbr (fun a => f (ι a)) (Edge.OnEdge g'.iverts) a := by
  induction h with
  | outlet hs => rintro a rfl; exact .outlet (hC.edge a hs)
  | @step n c ha hd _ ih =>
    rintro a rfl
    by_cases hin : ∃ b, ι b = c
    · obtain ⟨b, rfl⟩ := hin
      exact .step ((hC.adj _ _).2 ha) hd (ih b rfl)
    · exact .outlet (hC.border a c ha fun b hb => hin ⟨b, hb⟩)

/-- **C210**, cutting after filling: a part of a filled surface is not changed by filling it again with the same method. -/
theorem C210_filled (hC : Cut ι g g') (hsym : SymmNbr g.nbr) (hinf : ∀ x, x ≤ raise x) (hmono : Monotone raise)
    (hstrict : effective (none : Option (Fin N → Bool)) method = .priority → ∀ x, x < raise x)
    (hfl : effective (none : Option (Fin N → Bool)) method = .drain → ∀ n, dem n ≤ flood)
    (hall : effective (none : Option (Fin N → Bool)) method ≠ .drain → ∀ a, Reach g.nbr (Edge.OnEdge g.iverts) (ι a))
    (h : fillSinks fuel raise flood g dem none method = .ok out)
    (h' : fillSinks fuel' raise flood g' (fun a => out (ι a)) none method = .ok out') (a : Fin M) :
    out' a = out (ι a) := by
  have hsym' : SymmNbr g'.nbr := fun x y hxy => (hC.adj _ _).2 (hsym _ _ ((hC.adj _ _).1 hxy))
  have hM : effective (none : Option (Fin M → Bool)) method = effective (none : Option (Fin N → Bool)) method := by
    simp [effective]
  rcases heff : effective (none : Option (Fin N → Bool)) method
  · refine congrFun (C118_priority hinf hsym' (hM.trans heff) (fun b _ => ?_) h') a
    exact cut_drains hC (C03_drains_strictly (hstrict heff) hsym heff h (ι b) (hall (by simp [heff]) b)) b rfl
  · refine congrFun (C118_complete hsym' (hM.trans heff) (fun b _ => ?_) h') a
    exact cut_drains hC (C03_complete_drains hinf hsym (by simp [heff]) h (ι b) (hall (by simp [heff]) b)) b rfl
  · have hl := C10_drain_least hinf hmono (hfl heff) heff h
    have hfo : ∀ n, out n ≤ flood := fun n => (hl n).2 (.inl rfl)
    have hl' := C10_drain_least hinf hmono (fun b => hfo (ι b)) (hM.trans heff) h'
    refine le_antisymm ?_ (C01_never_lowers hinf (fun _ b => hfo (ι b)) h' a)
    have key : ∀ k v, PathRise raise g.nbr dem (Edge.OnEdge g.iverts) k v →
        ∃ v' ≤ v, PathRise raise g.nbr out (Edge.OnEdge g.iverts) k v' := by
      intro k v hv
      induction hv with
      | seed hs => exact ⟨_, (C02_edges_unchanged hinf h _ hs).le, .seed hs⟩
      | step hp ha ih =>
        obtain ⟨v', hle, hv'⟩ := ih
        exact ⟨_, max_le ((hl _).2 (.inr (.step hp ha))) ((hmono hle).trans (le_max_right _ _)), .step hv' ha⟩
    rcases (hl (ι a)).1 with h1 | h1
    · rw [h1]; exact (hl' a).2 (.inl rfl)
    · obtain ⟨v', hle, hv'⟩ := key (ι a) _ h1
      obtain ⟨w, hw, hp⟩ := cut_rise hmono hC (fun b => le_rfl) hv' a rfl
      exact ((hl' a).2 (.inr hp)).trans (hw.trans hle)

/-- **C210** with a stream mask ('complete', no stream cell lifted): now the water leaves through the stream cells only, so
filling the part raises a cell at least as high as filling the whole, and as high if all cells outside the part are at least
as high as that. -/
theorem C210_mask (hC : Cut ι g g') (hinj : Function.Injective ι) (hdem : ∀ a, dem' a = dem (ι a)) {m : Fin N → Bool}
    (hinf : ∀ x, x ≤ raise x) (hmeth : method.toLower = "complete")
    (h : fillSinks fuel raise flood g dem (some m) method = .ok out)
    (h' : fillSinks fuel' raise flood g' dem' (some fun a => m (ι a)) method = .ok out')
    (hkeep : ∀ n, m n = true → out n = dem n) (hkeep' : ∀ a, m (ι a) = true → out' a = dem' a) {a : Fin M}
    (hn : Reach g'.nbr (fun b => m (ι b) = true) a) :
    out (ι a) ≤ out' a ∧ ((∀ n, (∀ b, ι b ≠ n) → out' a ≤ dem n) → out' a = out (ι a)) := by
  have hr : ∀ b, Reach g'.nbr (fun b => m (ι b) = true) b → Reach g.nbr (fun n => m n = true) (ι b) := by
    intro b hb
    induction hb with
    | seed hs => exact .seed hs
    | step _ ha ih => exact .step ih ((hC.adj _ _).1 ha)
  have s1 := C192_spill hinf hmeth h hkeep (ι a) (hr a hn)
  have s2 := C192_spill hinf hmeth h' hkeep' a hn
  have up : ∀ b v, PathTop g'.nbr dem' (fun b => m (ι b) = true) b v → PathTop g.nbr dem (fun n => m n = true) (ι b) v := by
    intro b v hb
    induction hb with
    | seed hs => rw [hdem]; exact .seed hs
    | step _ ha ih => rw [hdem]; exact .step ih ((hC.adj _ _).1 ha)
  have hle := s1.2 (up a _ s2.1)
  refine ⟨hle, fun hout => le_antisymm ?_ hle⟩
  have down : ∀ n v, PathTop g.nbr dem (fun n => m n = true) n v →
      out' a ≤ v ∨ ∃ b, ι b = n ∧ PathTop g'.nbr dem' (fun b => m (ι b) = true) b v := by
    intro n v hv
    induction hv with
    | @seed s hs =>
      by_cases hin : ∃ b, ι b = s
      · obtain ⟨b, rfl⟩ := hin
        exact .inr ⟨b, rfl, by rw [← hdem]; exact .seed hs⟩
      · exact .inl (hout s fun b hb => hin ⟨b, hb⟩)
    | @step c n v _ ha ih =>
      rcases ih with ih | ⟨b, rfl, hp⟩
      · exact .inl (ih.trans (le_max_left _ _))
      · by_cases hin : ∃ b, ι b = n
        · obtain ⟨b', rfl⟩ := hin
          exact .inr ⟨b', rfl, by rw [← hdem]; exact .step hp ((hC.adj _ _).2 ha)⟩
        · exact .inl ((hout n fun b hb => hin ⟨b, hb⟩).trans (le_max_right _ _))
  rcases down _ _ s1.1 with hp | ⟨b, hb, hp⟩
  · exact hp
  · obtain rfl := hinj hb
    exact s2.2 hp

end

end Dany.Flood
