import Verif.Irun.Lemmas
import Verif.Seg.Props
import Mathlib.Data.Fin.VecNotation

/-!
# Properties C65, C66: `irunbnd`
-/

namespace Dany.Irun

open Function Relation

variable {N : ℕ} {fdir sa : Fin N → ℤ}

/-- a stream cell on a flow path implies one with the lowest number -/
theorem exists_lowest {v s : Fin N} (h : Gets fdir sa v s) : ∃ t, Lowest fdir sa v t := by
  classical
  obtain ⟨t, ht, hmin⟩ := (Finset.univ.filter (fun t => Gets fdir sa v t)).exists_minimal
    ⟨s, by simp [h]⟩
  simp only [Finset.mem_filter, Finset.mem_univ, true_and] at ht hmin
  refine ⟨t, ht, fun t' ht' => ?_⟩
  rcases le_total t t' with h | h
  · exact h
  · exact hmin ht' h

theorem Lowest.unique {v s t : Fin N} (h1 : Lowest fdir sa v s) (h2 : Lowest fdir sa v t) : s = t :=
  le_antisymm (h1.2 t h2.1) (h2.2 s h1.1)

/-- the flow path of a landscape cell and that of the cell it flows to meet the same stream cells -/
theorem gets_step {u v s : Fin N} (hu : ¬ 0 < sa u) (huv : Into fdir u v) :
    Gets fdir sa u s ↔ Gets fdir sa v s := by
  constructor
  · rintro ⟨h, hd⟩
    rcases ReflTransGen.cases_head hd with rfl | ⟨w, hw, hd⟩
    · exact absurd h hu
    · rw [huv.unique hw]; exact ⟨h, hd⟩
  · rintro ⟨h, hd⟩
    exact ⟨h, ReflTransGen.head huv hd⟩

/-- **C66, what the code does (partial).** `irunbnd` terminates.  A cell whose flow path meets no stream
cell gets 0.  A landscape cell gets the segment of the stream cell with the *lowest cell number* on its
flow path.  A stream cell that flows on to other stream cells gets the segment of the higher-numbered of
itself and the lowest-numbered stream cell downstream; a last stream cell keeps its own segment. -/
theorem C66_exact_partial {fuel : ℕ} (hf : N + 1 < fuel) : ∃ ir, irunbnd fuel fdir sa = .ok ir ∧ ∀ u,
    ((∀ s, ¬ Gets fdir sa u s) → ir u = 0) ∧
    (∀ s, ¬ 0 < sa u → Lowest fdir sa u s → ir u = sa s) ∧
    (∀ v s, 0 < sa u → Into fdir u v → Lowest fdir sa v s → ir u = sa (max u s)) ∧
    (0 < sa u → (∀ v s, Into fdir u v → ¬ Gets fdir sa v s) → ir u = sa u) := by
  obtain ⟨ir, V, e, h⟩ := irunbnd_ok (fdir := fdir) (sa := sa) hf
  refine ⟨ir, e, fun u => ⟨?_, ?_, ?_, ?_⟩⟩
  · intro hno
    apply h.none u
    · intro hu; exact hno u ⟨mem_streamCells.1 hu, ReflTransGen.refl⟩
    · rintro v huv ⟨s, hs, hd⟩
      exact hno s ⟨mem_streamCells.1 hs, ReflTransGen.head huv hd⟩
  · intro s hu hs
    have hne : u ≠ s := fun e => hu (e ▸ hs.1.1)
    rcases ReflTransGen.cases_head hs.1.2 with e | ⟨v, huv, hd⟩
    · exact absurd e hne
    · refine h.other u v s huv (mem_streamCells.2 hs.1.1) hd ?_
        (.inl (fun hm => hu (mem_streamCells.1 hm)))
      intro t ht hdt
      exact hs.2 t ⟨mem_streamCells.1 ht, ReflTransGen.head huv hdt⟩
  · intro v s hu huv hs
    rcases le_or_gt u s with hle | hlt
    · rw [max_eq_right hle]
      refine h.other u v s huv (mem_streamCells.2 hs.1.1) hs.1.2 ?_ (.inr hle)
      intro t ht hdt
      exact hs.2 t ⟨mem_streamCells.1 ht, hdt⟩
    · rw [max_eq_left hlt.le]
      apply h.own u (mem_streamCells.2 hu)
      intro v' huv' t _ _
      rw [← huv.unique huv']
      exact ⟨s, mem_streamCells.2 hs.1.1, hs.1.2, hlt.le⟩
  · intro hu hno
    apply h.own u (mem_streamCells.2 hu)
    intro v huv s hs hd
    exact absurd ⟨mem_streamCells.1 hs, hd⟩ (hno v s huv)

/-- **C65.** `irunbnd` terminates; a cell's value is nonzero exactly if a stream cell lies on its flow
path (the cell itself included), and it is then the segment number of such a stream cell. -/
theorem C65_path {fuel : ℕ} (hf : N + 1 < fuel) : ∃ ir, irunbnd fuel fdir sa = .ok ir ∧ ∀ u,
    (ir u ≠ 0 ↔ ∃ s, Gets fdir sa u s) ∧
    ((∃ s, Gets fdir sa u s) → ∃ s, Gets fdir sa u s ∧ ir u = sa s) := by
  obtain ⟨ir, e, h⟩ := C66_exact_partial (fdir := fdir) (sa := sa) hf
  refine ⟨ir, e, fun u => ?_⟩
  obtain ⟨h1, h2, h3, h4⟩ := h u
  have key : (∃ s, Gets fdir sa u s) → ∃ s, Gets fdir sa u s ∧ ir u = sa s := by
    rintro ⟨s, hs⟩
    by_cases hu : 0 < sa u
    · by_cases hv : ∃ v t, Into fdir u v ∧ Gets fdir sa v t
      · obtain ⟨v, t, huv, ht⟩ := hv
        obtain ⟨m, hm⟩ := exists_lowest ht
        refine ⟨max u m, ?_, h3 v m hu huv hm⟩
        rcases max_choice u m with e | e <;> rw [e]
        · exact ⟨hu, ReflTransGen.refl⟩
        · exact ⟨hm.1.1, ReflTransGen.head huv hm.1.2⟩
      · push Not at hv
        exact ⟨u, ⟨hu, ReflTransGen.refl⟩, h4 hu hv⟩
    · obtain ⟨m, hm⟩ := exists_lowest hs
      exact ⟨m, hm.1, h2 m hu hm⟩
  refine ⟨⟨?_, ?_⟩, key⟩
  · intro hne
    by_contra hno
    push Not at hno
    exact hne (h1 hno)
  · intro hs
    obtain ⟨s, hs, e⟩ := key hs
    rw [e]
    have := hs.1
    omega

/-- **C66 for cells on which it is right (partial).** A landscape cell gets the segment of the first
stream cell it meets if no later stream cell on its path has a lower cell number; a stream cell keeps its
own segment if no stream cell lies downstream of it or one of those has a lower cell number. -/
theorem C66_first_partial {fuel : ℕ} (hf : N + 1 < fuel) : ∃ ir, irunbnd fuel fdir sa = .ok ir ∧
    (∀ u f, ¬ 0 < sa u → First fdir sa u f → (∀ t, Gets fdir sa u t → f ≤ t) → ir u = sa f) ∧
    (∀ u, 0 < sa u → (∀ v s, Into fdir u v → Gets fdir sa v s → ∃ t, Gets fdir sa v t ∧ t ≤ u) →
      ir u = sa u) := by
  obtain ⟨ir, e, h⟩ := C66_exact_partial (fdir := fdir) (sa := sa) hf
  refine ⟨ir, e, ?_, ?_⟩
  · intro u f hu hfst hlow
    apply (h u).2.1 f hu ⟨?_, hlow⟩
    clear hlow hu
    induction hfst with
    | here h => exact ⟨h, ReflTransGen.refl⟩
    | step hu h1 _ ih => exact (gets_step hu h1).2 ih
  · intro u hu hall
    by_cases hv : ∃ v t, Into fdir u v ∧ Gets fdir sa v t
    · obtain ⟨v, t, huv, ht⟩ := hv
      obtain ⟨m, hm⟩ := exists_lowest ht
      rw [(h u).2.2.1 v m hu huv hm, max_eq_left]
      obtain ⟨t', ht', hle⟩ := hall v t huv ht
      exact (hm.2 t' ht').trans hle
    · push Not at hv
      exact (h u).2.2.2 hu hv

/-- **C66 is false of the code on every real network**: if a landscape cell `u` flows into the last cell
`f` of a segment, and only cells of other segments (at least one) follow downstream of `f`, then `u` or
`f` itself gets a wrong segment. -/
theorem C66_refuted {fuel : ℕ} (hf : N + 1 < fuel) {u f v g : Fin N} (hu : ¬ 0 < sa u) (hfs : 0 < sa f)
    (huf : Into fdir u f) (hfv : Into fdir f v) (hg : Gets fdir sa v g)
    (hother : ∀ t, Gets fdir sa v t → sa t ≠ sa f) :
    First fdir sa u f ∧ First fdir sa f f ∧
      ∃ ir, irunbnd fuel fdir sa = .ok ir ∧ (ir u ≠ sa f ∨ ir f ≠ sa f) := by
  refine ⟨.step hu huf (.here hfs), .here hfs, ?_⟩
  obtain ⟨ir, e, h⟩ := C66_exact_partial (fdir := fdir) (sa := sa) hf
  refine ⟨ir, e, ?_⟩
  obtain ⟨m, hm⟩ := exists_lowest hg
  rcases lt_or_ge m f with hlt | hle
  · left
    rw [(h u).2.1 m hu ?_]
    · exact hother m hm.1
    · refine ⟨⟨hm.1.1, ReflTransGen.head huf (ReflTransGen.head hfv hm.1.2)⟩, ?_⟩
      intro t ht
      rw [gets_step hu huf] at ht
      rcases ReflTransGen.cases_head ht.2 with e | ⟨w, hw, hd⟩
      · rw [← e]; exact hlt.le
      · rw [hfv.unique hw] at hm
        exact hm.2 t ⟨ht.1, hd⟩
  · right
    rw [(h f).2.2.1 v m hfs hfv hm, max_eq_right hle]
    exact hother m hm.1

/-- C66 on three cells 2 → 1 → 0 of which 0 and 1 are streams of segments 2 and 1: cell 2 drains into
cell 1 but is given segment 2 -/
theorem C66_refuted_concrete : (irunbnd 9 ![0, 0, 1] ![2, 1, 0]).map List.ofFn = .ok [2, 1, 2] := by
  decide +kernel

/-- the other numbering, 2 → 0 → 1: now the stream cell 0 itself is wrong -/
theorem C66_refuted_stream : (irunbnd 9 ![1, 1, 0] ![1, 2, 0]).map List.ofFn = .ok [2, 2, 1] := by
  decide +kernel

section Object

open Seg

/-- **C65, whole call.** On a fresh object whose stream cells are all fed from headwaters, `irunbnd()`
numbers the segments, and gives a cell a nonzero value exactly if a stream cell lies on its flow path;
the value is then the segment number of such a stream cell in the stored connectivity. -/
theorem C65_object {limit wfuel fuel : ℕ} {o : Obj N} {sa : Fin N → ℤ} (hsa : o.streamArray = some sa)
    (hsg : o.segGraph = none) (hw : N ≤ wfuel) (hl : SegsFit o.fdir sa limit) (hf : N + 1 < fuel)
    (hhead : ∀ n, sa n ≠ 0 → ∃ h, Headwater o.fdir sa h ∧ ReflTransGen (Feeds o.fdir sa) h n) :
    ∃ o' ir out, o.irunbnd limit wfuel fuel false none none true = .ok (o', ir) ∧
      mf2005 limit wfuel false o.fdir sa true = .ok out ∧ o'.streamArray = some out.sa ∧
      o'.segGraph = some out.sg ∧ ∀ u,
        (ir u ≠ 0 ↔ ∃ s, sa s ≠ 0 ∧ Down o.fdir u s) ∧
        (ir u ≠ 0 → ∃ s r, (s, ir u, r) ∈ out.nsr ∧ Down o.fdir u s) := by
  obtain ⟨out, hout⟩ := C56_terminates (fdir := o.fdir) (sa := sa) hw hl
  obtain ⟨_, k2, k3, k4, _⟩ := C56_rows hw hout
  obtain ⟨_, _, k5, k6⟩ := C58_numbers hw hout
  obtain ⟨ir, e, h⟩ := C65_path (fdir := o.fdir) (sa := out.sa) hf
  have hrow : ∀ n, sa n ≠ 0 → ∃ r, (n, out.sa n, r) ∈ out.nsr := by
    intro n hn
    obtain ⟨a, ha, hr⟩ := hhead n hn
    obtain ⟨s, r, hm⟩ := (k2 n).2 ⟨a, .inl ha, hr⟩
    exact ⟨r, by rw [(k3 n s r hm).2.1]; exact hm⟩
  have hpos : ∀ n, sa n ≠ 0 → 0 < out.sa n := by
    intro n hn
    obtain ⟨r, hm⟩ := hrow n hn
    have := (k5 _).1 ((k6 _).2 ⟨n, r, hm⟩)
    omega
  have hgets : ∀ u s, Gets o.fdir out.sa u s ↔ sa s ≠ 0 ∧ Down o.fdir u s := by
    intro u s
    constructor
    · rintro ⟨h1, h2⟩
      refine ⟨fun h0 => ?_, h2⟩
      rw [k4 s h0] at h1
      omega
    · rintro ⟨h1, h2⟩
      exact ⟨hpos s h1, h2⟩
  refine ⟨{ o with streamArray := some out.sa, segGraph := some out.sg }, ir, out, ?_, hout, rfl, rfl, ?_⟩
  · unfold Obj.irunbnd Obj.source Obj.number
    simp only [hsa, hsg, Res.bind_ok, Option.isNone_none, and_self, if_true, hout, Res.map_ok, e]
  · intro u
    obtain ⟨h1, h2⟩ := h u
    simp only [hgets] at h1 h2
    refine ⟨h1, fun hne => ?_⟩
    obtain ⟨s, hs, he⟩ := h2 (h1.1 hne)
    obtain ⟨r, hr⟩ := hrow s hs.1
    exact ⟨s, r, by rw [he]; exact hr, hs.2⟩

/-- **C65.** If a segment graph is given or stored, the array given or stored is used as it is. -/
theorem C65_given {limit wfuel fuel : ℕ} {b grp : Bool} {o : Obj N} {sa : Fin N → ℤ}
    {arg : Option (Fin N → ℤ)} {sgArg : Option (Dict ℤ ℤ)}
    (harg : arg = some sa ∨ (arg = none ∧ o.streamArray = some sa))
    (hg : sgArg ≠ none ∨ o.segGraph ≠ none) (hf : N + 1 < fuel) :
    ∃ ir, o.irunbnd limit wfuel fuel b arg sgArg grp = .ok (o, ir) ∧ ∀ u,
      (ir u ≠ 0 ↔ ∃ s, Gets o.fdir sa u s) ∧
      ((∃ s, Gets o.fdir sa u s) → ∃ s, Gets o.fdir sa u s ∧ ir u = sa s) := by
  obtain ⟨ir, e, h⟩ := C65_path (fdir := o.fdir) (sa := sa) hf
  refine ⟨ir, ?_, h⟩
  have hs : o.source arg = .ok sa := by
    rcases harg with rfl | ⟨rfl, h⟩
    · rfl
    · simp [Obj.source, h]
  unfold Obj.irunbnd
  rw [hs, Res.bind_ok, if_neg]
  · simp [e]
  · rintro ⟨h1, h2⟩
    rw [Option.isNone_iff_eq_none] at h1 h2
    rcases hg with h | h
    · exact h h1
    · exact h h2

/-- non-vacuity: tributaries 0 and 1 join in 2, which flows to 3; landscape 4 → 5 → 0, 6 → 6 -/
example : (Obj.irunbnd 20 9 30 false (⟨![2, 2, 3, 3, 5, 0, 6], some ![1, 1, 1, 1, 0, 0, 0], none⟩ : Obj 7)
    none none true).map (fun r => List.ofFn r.2) = .ok [3, 3, 4, 4, 2, 2, 0] := by decide +kernel

end Object

/-- hypotheses of `C66_refuted` on the chain 2 → 1 → 0 -/
example : ∃ u f v g : Fin 3, ¬ 0 < (![2, 1, 0] : Fin 3 → ℤ) u ∧ 0 < (![2, 1, 0] : Fin 3 → ℤ) f ∧
    Into ![0, 0, 1] u f ∧ Into ![0, 0, 1] f v ∧ Gets ![0, 0, 1] ![2, 1, 0] v g ∧
    ∀ t, Gets ![0, 0, 1] ![2, 1, 0] v t → (![2, 1, 0] : Fin 3 → ℤ) t ≠ (![2, 1, 0] : Fin 3 → ℤ) f := by
  refine ⟨2, 1, 0, 0, by decide, by decide, by simp [Into], by simp [Into],
    ⟨by decide, ReflTransGen.refl⟩, ?_⟩
  rintro t ⟨hpos, hd⟩
  clear hpos
  have : t = 0 := by
    induction hd with
    | refl => rfl
    | tail _ h ih =>
      subst ih
      unfold Into at h
      simp at h
      exact Fin.ext (by simpa using h.symm)
  subst this
  decide

end Dany.Irun
