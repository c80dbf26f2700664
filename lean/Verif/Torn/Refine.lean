import Verif.Torn.Props
import Verif.Prms.Model
import Verif.Irun.Model
import Verif.Vec.Model

/-!
# C153: what the other methods of a stream object return

`C103_tables` and `C103_sfr6` are about `Sfr2005` and `Sfr6` tables; here are `create_stream_vectors`, `irunbnd`, and
connectivity, cascades and builder object of `PrmsStreams`, in every state an object can be in.
-/

/-! ### Programs as functions from state to state and value -/

namespace Dany.Fail.Prog

variable {σ α β : Type*}

/-- outcome and final state of a call -/
def run (p : Prog σ α) (s : σ) : Res (σ × α) := (p.res s).map fun a => (p.after s, a)

theorem run_pure (a : α) (s : σ) : (pure a : Prog σ α).run s = .ok (s, a) := rfl

theorem run_read (f : σ → Res α) (s : σ) : (read f).run s = (f s).map fun a => (s, a) := rfl

theorem run_write (g : σ → σ) (s : σ) : (write g).run s = .ok (g s, ()) := rfl

theorem run_bind (p : Prog σ α) (f : α → Prog σ β) (s : σ) :
    (p.bind f).run s = (p.run s).bind fun r => (f r.2).run r.1 := by
  unfold run
  rw [res_bind, after_bind]
  cases p.res s <;> rfl

theorem run_seq (p : Prog σ Unit) (q : Prog σ β) (s : σ) : (p.seq q).run s = (p.run s).bind fun r => q.run r.1 :=
  run_bind p _ s

theorem res_of_run (p : Prog σ α) (s : σ) : p.res s = (p.run s).map Prod.snd := by
  unfold run
  cases p.res s <;> rfl

theorem after_of_run {p : Prog σ α} {s s' : σ} {a : α} (h : p.run s = .ok (s', a)) : p.after s = s' := by
  obtain ⟨_, _, h⟩ := Res.map_eq_ok.1 h
  exact congrArg Prod.fst h

end Dany.Fail.Prog

namespace Dany.Torn

open Reach Seg Fail Prog

variable {N : ℕ} {K V : Type*} (E : Env N)

theorem bind_map {α β γ : Type*} (x : Res α) (f : α → β) (g : β → Res γ) : (x.map f).bind g = x.bind fun a => g (f a) := by
  cases x <;> rfl

theorem map_bind {α β γ : Type*} (x : Res α) (f : α → Res β) (g : β → γ) : (x.bind f).map g = x.bind fun a => (f a).map g := by
  cases x <;> rfl

theorem map_map {α β γ : Type*} (x : Res α) (f : α → β) (g : β → γ) : (x.map f).map g = x.map fun a => g (f a) := by
  cases x <;> rfl

/-- the array given or stored, as a function of the attributes -/
theorem run_source (arg : Option (Fin N → ℤ)) (s : Sm N) :
    (source arg).run s = ((toReach E s).source arg).map fun sa => (s, sa) := by
  unfold source
  rw [run_read]
  cases arg <;> rfl

theorem run_conn6 (arg : Option (Fin N → ℤ)) (s : Sm N) : (conn6 E arg).run s =
    ((toReach E s).source arg).bind fun sa => (mf6 E.limit E.fdir sa).map fun r =>
      ({ s with streamArray := some r.1, graph := some (someVals r.2) }, r.2) := by
  unfold conn6
  rw [run_bind, run_source E]
  cases (toReach E s).source arg with
  | ok sa =>
    simp only [Res.map_ok, Res.bind_ok, run_bind, run_read, run_seq, run_write, run_pure]
    cases mf6 E.limit E.fdir sa <;> rfl
  | err e => rfl
  | hang => rfl

theorem run_conn5 (arg : Option (Fin N → ℤ)) (grp : Bool) (s : Sm N) : (conn5 E arg grp).run s =
    ((toReach E s).source arg).bind fun sa => (mf2005 E.limit E.fuel E.unstructured E.fdir sa grp).map fun out : Out N =>
      (Sm.ofOut out, out.sg) := by
  unfold conn5
  rw [run_bind, run_source E]
  cases (toReach E s).source arg with
  | ok sa =>
    simp only [Res.map_ok, Res.bind_ok, run_bind, run_read, run_seq, run_write, run_pure]
    cases mf2005 E.limit E.fuel E.unstructured E.fdir sa grp <;> rfl
  | err e => rfl
  | hang => rfl

/-- `get_stream_connectivity` of `PrmsStreams`: value and object -/
theorem run_connP (arg : Option (Fin N → ℤ)) (grp : Bool) (s : Sm N) :
    ((connP E arg grp).run s).map (fun r => (toReach E r.1, r.2)) =
      Prms.connect E.limit E.fuel E.unstructured (toReach E s) arg grp := by
  unfold connP Prms.connect
  split
  · rw [run_conn5, map_bind]
    congr 1
    funext sa
    rw [map_map]
    rfl
  · rw [run_conn6, map_bind]
    unfold Reach.Obj.connectivity
    congr 1
    funext sa
    rw [map_map]
    rfl

section Field

variable [Field K] [LinearOrder K]

omit [Field K] [LinearOrder K] in
theorem given_eq (o : Reach.Obj N) (arg : Option (Fin N → ℤ)) :
    (match arg with | some sa => Res.ok sa | none => o.stream) = o.source arg := by
  cases arg with
  | some sa => rfl
  | none =>
    unfold Obj.stream Obj.source
    cases o.streamArray <;> rfl

omit [Field K] [LinearOrder K] in
theorem cascadeStreams_eq (limit fuel : ℕ) (u : Bool) (o : Reach.Obj N) (arg : Option (Fin N → ℤ)) (kw : Bool) :
    Prms.cascadeStreams limit fuel u o arg kw = (o.source arg).bind fun sa => match o.graph with
      | some _ => .ok (o, sa)
      | none => (Prms.connect limit fuel u o (some sa) kw).bind fun r => r.1.stream.map fun sa' => (r.1, sa') := by
  unfold Prms.cascadeStreams
  exact congrArg (fun x : Res (Fin N → ℤ) => x.bind _) (given_eq o arg)

/-- `get_cascades`: value and object -/
theorem run_cascades (nbs : Fin N → List (Fin N × Option K)) (arg : Option (Fin N → ℤ)) (active : Fin N → Bool)
    (many2many kwGroup : Bool) (s : Sm N) :
    ((cascades E nbs arg active many2many kwGroup).run s).map (fun r => (toReach E r.1, r.2)) =
      Prms.cascades E.limit E.fuel E.unstructured nbs (toReach E s) arg active many2many kwGroup := by
  unfold cascades Prms.cascades
  rw [cascadeStreams_eq, run_bind, run_source E]
  cases (toReach E s).source arg with
  | err e => rfl
  | hang => rfl
  | ok sa =>
    simp only [Res.map_ok, Res.bind_ok, run_bind, run_read]
    have hg : (toReach E s).graph = s.graph := rfl
    have hfd : (toReach E s).fdir = E.fdir := rfl
    rw [hg, hfd]
    cases hsg : s.graph with
    | some g =>
      simp only [run_pure, Res.bind_ok, map_bind, map_map]
    | none =>
      dsimp only
      rw [run_bind, ← run_connP]
      cases (connP E (some sa) kwGroup).run s with
      | err e => rfl
      | hang => rfl
      | ok r =>
        simp only [Res.bind_ok, Res.map_ok, run_source E]
        have hst : (toReach E r.1).stream = (toReach E r.1).source none := by
          unfold Obj.stream Obj.source
          cases (toReach E r.1).streamArray <;> rfl
        rw [hst]
        cases (toReach E r.1).source none with
        | err e => rfl
        | hang => rfl
        | ok sa' =>
          simp only [Res.bind_ok, Res.map_ok]
          cases (if many2many = true then Casc.manyToMany E.fdir active sa' nbs else Casc.manyToOne E.fdir active) with
          | ok links =>
            simp only [Res.bind_ok]
            cases Casc.finishRows sa' links <;> rfl
          | err e => rfl
          | hang => rfl

end Field

/-- **C153, `PrmsStreams`.**  In every state, `get_stream_connectivity` and `get_cascades` return what the models of `Prms`
say (those of C61–C64, C76, C88–C90, C148), and leave the object as these say. -/
theorem C153_prms [Field K] [LinearOrder K] (W : World N K) (s : Sm N) (arg : Option (Fin N → ℤ)) (active : Fin N → Bool)
    (grp many : Bool) :
    (connP E arg grp).res s =
      (Prms.connect E.limit E.fuel E.unstructured (toReach E s) arg grp).map Prod.snd ∧
    (cascades E W.nbs arg active many grp).res s =
      (Prms.cascades E.limit E.fuel E.unstructured W.nbs (toReach E s) arg active many grp).map Prod.snd ∧
    (∀ o g, Prms.connect E.limit E.fuel E.unstructured (toReach E s) arg grp = .ok (o, g) →
      toReach E ((connP E arg grp).after s) = o) ∧
    (∀ o rows, Prms.cascades E.limit E.fuel E.unstructured W.nbs (toReach E s) arg active many grp = .ok (o, rows) →
      toReach E ((cascades E W.nbs arg active many grp).after s) = o) := by
  refine ⟨?_, ?_, ?_, ?_⟩
  · rw [res_of_run, ← run_connP, map_map]
  · rw [res_of_run, ← run_cascades, map_map]
  · intro o g h
    rw [← run_connP] at h
    obtain ⟨⟨s', g'⟩, h1, h2⟩ := Res.map_eq_ok.1 h
    cases h2
    rw [after_of_run h1]
  · intro o rows h
    rw [← run_cascades] at h
    obtain ⟨⟨s', g'⟩, h1, h2⟩ := Res.map_eq_ok.1 h
    cases h2
    rw [after_of_run h1]

/-- the builder object of `PrmsStreams` has the rows and counts of the model, and the object is left as it says -/
theorem C153_builder (nbs : Fin N → List (Fin N × Option ℝ)) (fa : Prms.Fa N) (s : Sm N) (arg : Option (Fin N → ℤ))
    (active : Fin N → Bool) (grp many : Bool) {o : Reach.Obj N} {b : Prms.Builder N}
    (h : Prms.builder E.limit E.fuel E.unstructured nbs fa (toReach E s) arg active grp many = .ok (o, b)) :
    (prmsBuilder E nbs arg active grp many).res s = .ok (b.rows, b.nsegments, b.nreaches) ∧
    toReach E ((prmsBuilder E nbs arg active grp many).after s) = o := by
  unfold Prms.builder at h
  rw [← run_connP] at h
  have hrun : ∃ s', (prmsBuilder E nbs arg active grp many).run s = .ok (s', b.rows, b.nsegments, b.nreaches) ∧
      toReach E s' = o := by
    unfold prmsBuilder
    rw [run_bind]
    obtain ⟨r, h1, h⟩ := Res.bind_eq_ok.1 h
    obtain ⟨⟨s1, g⟩, h1', rfl⟩ := Res.map_eq_ok.1 h1
    rw [h1']
    simp only [Res.bind_ok, run_bind, run_read, Res.map_ok]
    dsimp only at h
    rw [show (toReach E s1).streamArray = s1.streamArray from rfl, ← run_cascades] at h
    obtain ⟨r, h2, h⟩ := Res.bind_eq_ok.1 h
    obtain ⟨⟨s2, rows⟩, h2', rfl⟩ := Res.map_eq_ok.1 h2
    rw [h2']
    simp only [Res.bind_ok, run_source E, bind_map, run_pure]
    dsimp only at h
    obtain ⟨sa, h3, h⟩ := Res.bind_eq_ok.1 h
    rw [show (toReach E s2).source arg = .ok sa from (given_eq _ arg).symm.trans h3]
    obtain ⟨sl, h4, h⟩ := Res.bind_eq_ok.1 h
    obtain ⟨as, h5, h⟩ := Res.map_eq_ok.1 h
    cases h
    exact ⟨s2, rfl, rfl⟩
  obtain ⟨s', h1, h2⟩ := hrun
  refine ⟨by rw [res_of_run, h1]; rfl, by rw [after_of_run h1]; exact h2⟩

/-- The object as `Irun` sees it -/
def toIrun (s : Sm N) : Irun.Obj N := ⟨E.fdir, s.streamArray, s.segGraph⟩

/-- **C153, `irunbnd`**: what the model of `Irun` says (C65, C66), in every state -/
theorem C153_irunbnd (cfuel : ℕ) (s : Sm N) (arg : Option (Fin N → ℤ)) (given : Option (Dict ℤ ℤ)) (grp : Bool) :
    ((irun E cfuel arg given grp).run s).map (fun r => (toIrun E r.1, r.2)) =
      (toIrun E s).irunbnd E.limit E.fuel cfuel E.unstructured arg given grp := by
  unfold irun Irun.Obj.irunbnd
  have hsrc : (toIrun E s).source arg = (toReach E s).source arg := by cases arg <;> rfl
  rw [run_bind, run_source E, hsrc]
  cases (toReach E s).source arg with
  | err e => rfl
  | hang => rfl
  | ok sa =>
    simp only [Res.map_ok, Res.bind_ok, run_bind, run_read]
    have hg : (toIrun E s).segGraph = s.segGraph := rfl
    have hfd : (toIrun E s).fdir = E.fdir := rfl
    rw [hg, hfd]
    by_cases hc : given.isNone ∧ s.segGraph.isNone
    · rw [if_pos (by simpa using hc), if_pos (by simpa using hc), run_bind, run_conn5]
      unfold Irun.Obj.number
      simp only [Obj.source, Res.bind_ok]
      rw [hfd]
      cases mf2005 E.limit E.fuel E.unstructured E.fdir sa grp with
      | err e => rfl
      | hang => rfl
      | ok out =>
        simp only [Res.bind_ok, Res.map_ok, run_source E]
        show (((toReach E (Sm.ofOut out)).source none).map _ |>.bind _).map _ = _
        have : (toReach E (Sm.ofOut out)).source none = .ok out.sa := rfl
        rw [this]
        simp only [Res.bind_ok, Res.map_ok]
        cases Irun.irunbnd cfuel E.fdir out.sa <;> rfl
    · rw [if_neg (by simpa using hc), if_neg (by simpa using hc)]
      simp only [run_pure, Res.bind_ok]
      cases Irun.irunbnd cfuel E.fdir sa <;> rfl

/-- **C153, `create_stream_vectors`**: what the model of `Vec` says (C67), in every state -/
theorem C153_vectors (vfuel : ℕ) (xy : Fin N → V) (s : Sm N) (arg : Option (Fin N → ℤ)) (grp : Bool) :
    (vectors E vfuel xy arg grp).res s = ((toReach E s).source arg).bind fun sa =>
      Vec.createVectors E.limit E.fuel vfuel E.unstructured E.fdir sa grp xy := by
  unfold vectors Vec.createVectors
  rw [res_of_run, run_bind, run_conn5]
  cases (toReach E s).source arg with
  | err e => rfl
  | hang => rfl
  | ok sa =>
    simp only [Res.bind_ok]
    cases mf2005 E.limit E.fuel E.unstructured E.fdir sa grp with
    | err e => rfl
    | hang => rfl
    | ok out =>
      simp only [Res.map_ok, Res.bind_ok, run_read, Sm.ofOut, need]
      cases Vec.vectorsOf vfuel out.sg out.nsr xy <;> rfl


/-- three cells in a line, the first two of them stream; two calls, then the vectors -/
example : (vectors (⟨![1, 2, 2], false, 10, 10⟩ : Env 3) 10 (fun n => n) none true).res
    (history (K := ℚ) (⟨![1, 2, 2], false, 10, 10⟩ : Env 3)
      ⟨id, ⟨0, 0, 0, 0, 0⟩, ⟨1, 0, 0, fun _ => none, 0, 0, id⟩, fun _ => []⟩ Sm.new
      [.store (.ok ![1, 1, 0]), .conn6 none]) = .ok [(1, [0, 1])] := by decide +kernel

end Dany.Torn
