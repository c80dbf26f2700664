import Verif.Torn.Interrupt

/-!
# `Sfr2005.get_pygsflow_builder_object` and the tables of its caller (C100, C101)

`Rdata` says what the method returns.  Here it is a program that assigns to the rows of the tables it is given.
-/

namespace Dany.Torn

open Function Reach Seg Fail Prog Rdata

variable {N : ℕ} {K : Type*}

/-- The object and the arrays of the caller: reach data, segment data, irunbnd -/
structure Bw (N : ℕ) (K : Type*) where
  sm : Sm N
  rd : List (Row K)
  sd : List (SRow K)
  ir : Fin N → ℤ

/-- a method of the object, seen with the arrays of the caller -/
def zoom {α : Type*} (p : Prog (Sm N) α) : Prog (Bw N K) α := fun w =>
  ((p w.sm).1.map fun s => { w with sm := s }, (p w.sm).2)

/-- which of `reach_data`, `segment_data`, `irunbnd` are passed -/
structure Given where
  rd : Bool
  sd : Bool
  ir : Bool

section

variable [Field K] [LinearOrder K]

/-- `for ix, rec in enumerate(reach_data)` (stream_util.py:1036-1065) on the table of the caller: each row is computed
and assigned in place.  The four assignments to one row are taken together. -/
def fixGiven (G : SGrid N K) : Prog (Bw N K) Unit :=
  (read fun w => .ok w.rd.length).bind fun n => each (List.range n) fun ix =>
    (read fun w => match w.rd[ix]? with
      | some rec => fixRow G w.rd rec
      | none => .err .indexError).bind fun row =>
        write fun w => { w with rd := w.rd.set ix row }

omit [LinearOrder K] in
/-- `segment_data[k] = np.full(…)` for all defaults (stream_util.py:1067-1070) on the table of the caller -/
def fixGivenSegs : Prog (Bw N K) Unit :=
  each (segDefaults K) fun e => write fun w => { w with sd := w.sd.map fun s => { s with param := update s.param e.1 e.2 } }

/-- `get_pygsflow_builder_object` (stream_util.py:954-1072); a table that is not passed is computed and not visible to the
caller before the method returns. -/
def builder (E : Env N) (cfuel : ℕ) (G : SGrid N K) (given : Given) (applyDefaults group : Bool) (kw : List String) :
    Prog (Bw N K) (List (Row K) × List (SRow K) × (Fin N → ℤ)) :=
  (read fun _ => kwLoop kw).bind fun _ =>
  (if given.rd = true then pure none else (zoom (reachData E G none group)).bind fun t => pure (some t)).bind fun rd =>
  (if given.sd = true then pure none else (zoom (segmentData K E none group)).bind fun t => pure (some t)).bind fun sd =>
  (if given.ir = true then read fun w => .ok w.ir else zoom (irun E cfuel none none group)).bind fun ir =>
  if applyDefaults = true then
    (match rd with
      | none => (fixGiven G).seq <| read fun w => .ok w.rd
      | some t => read fun _ => fixRows G t t).bind fun rows =>
    (match sd with
      | none => fixGivenSegs.seq <| read fun w => .ok w.sd
      | some t => pure (t.map fixSeg)).bind fun segs => pure (rows, segs, ir)
  else read fun w => .ok (rd.getD w.rd, sd.getD w.sd, ir)

end

/-! ### The loop over the rows -/

/-- the columns the method does not assign to -/
def fixedCols (r : Row K) : ℤ × ℕ × ℕ × ℕ × ℤ × ℤ × K × ℕ × ℤ :=
  (r.node, r.k, r.i, r.j, r.iseg, r.ireach, r.rchlen, r.reachID, r.outreach)

variable [Field K] [LinearOrder K]

theorem fixRow_cols {G : SGrid N K} {tbl : List (Row K)} {rec row : Row K} (h : fixRow G tbl rec = .ok row) :
    fixedCols row = fixedCols rec := by
  unfold fixRow at h
  obtain ⟨nd, _, h⟩ := Res.bind_eq_ok.1 h
  obtain ⟨n, _, h⟩ := Res.bind_eq_ok.1 h
  obtain ⟨m, _, h⟩ := Res.map_eq_ok.1 h
  rw [← h]
  rfl

/-- the entry of a column looked up by a Python index depends on the column only -/
theorem pyIndex_node {t t' : List (Row K)} (h : t.map (·.node) = t'.map (·.node)) (i : ℤ) :
    (pyIndex t.length i).map (fun k => (t.get k).node) = (pyIndex t'.length i).map fun k => (t'.get k).node := by
  have key : ∀ t : List (Row K), (pyIndex t.length i).map (fun k => (t.get k).node) =
      (pyIndex (t.map (·.node)).length i).map fun k => (t.map (·.node)).get k := by
    intro t
    unfold pyIndex
    by_cases h1 : 0 ≤ i ∧ i < t.length
    · have h2 : 0 ≤ i ∧ i < (t.map (·.node)).length := by simpa using h1
      rw [dif_pos h1, dif_pos h2]
      simp [Res.map]
    · have h2 : ¬ (0 ≤ i ∧ i < (t.map (·.node)).length) := by simpa using h1
      rw [dif_neg h1, dif_neg h2]
      by_cases h3 : -(t.length : ℤ) ≤ i ∧ i < 0
      · have h4 : -((t.map (·.node)).length : ℤ) ≤ i ∧ i < 0 := by simpa using h3
        rw [dif_pos h3, dif_pos h4]
        simp [Res.map]
      · have h4 : ¬ (-((t.map (·.node)).length : ℤ) ≤ i ∧ i < 0) := by simpa using h3
        rw [dif_neg h3, dif_neg h4]
        rfl
  rw [key t, key t', h]

/-- only the nodes (and the length) of the table are looked at -/
theorem fixRow_table {G : SGrid N K} {t t' : List (Row K)} (h : t.map (·.node) = t'.map (·.node)) (rec : Row K) :
    fixRow G t rec = fixRow G t' rec := by
  have hl : t.length = t'.length := by simpa using congrArg List.length h
  unfold fixRow
  congr 1
  by_cases hc : rec.outreach - 1 ≥ (t.length : ℤ)
  · rw [if_pos hc, if_pos (by rw [← hl]; exact hc)]
  · rw [if_neg hc, if_neg (by rw [← hl]; exact hc), pyIndex_node h]

theorem fixRows_table {G : SGrid N K} {t t' : List (Row K)} (h : t.map (·.node) = t'.map (·.node)) (l : List (Row K)) :
    fixRows G t l = fixRows G t' l := by
  induction l with
  | nil => rfl
  | cons d l ih => rw [fixRows, fixRows, fixRow_table h, ih]

/-- the body of the loop -/
def body (G : SGrid N K) (ix : ℕ) : Prog (Bw N K) Unit :=
  (read fun w => match w.rd[ix]? with
    | some rec => fixRow G w.rd rec
    | none => .err .indexError).bind fun row => write fun w => { w with rd := w.rd.set ix row }

/-- The rows done so far are those of `Rdata.fixRows`; if the loop raises at a row, the rows before it stay fixed. -/
theorem loop_run (G : SGrid N K) (rest : List (Row K)) : ∀ (pre : List (Row K)) (w : Bw N K), w.rd = pre ++ rest →
    ((∃ rows, fixRows G w.rd rest = .ok rows ∧ (each (List.range' pre.length rest.length) (body G)).res w = .ok () ∧
        (each (List.range' pre.length rest.length) (body G)).after w = { w with rd := pre ++ rows }) ∨
     (∃ k rec done, rest[k]? = some rec ∧ fixRows G w.rd (rest.take k) = .ok done ∧
        (∀ x, fixRow G w.rd rec ≠ .ok x) ∧ (∀ rows, fixRows G w.rd rest ≠ .ok rows) ∧
        (each (List.range' pre.length rest.length) (body G)).res w = (fixRow G w.rd rec).map (fun _ => ()) ∧
        (each (List.range' pre.length rest.length) (body G)).res w = (fixRows G w.rd rest).map (fun _ => ()) ∧
        (each (List.range' pre.length rest.length) (body G)).after w = { w with rd := pre ++ done ++ rest.drop k })) := by
  induction rest with
  | nil =>
    intro pre w hw
    refine .inl ⟨[], rfl, rfl, ?_⟩
    show w = _
    rw [← hw]
  | cons d l ih =>
    intro pre w hw
    have hget : w.rd[pre.length]? = some d := by rw [hw]; simp
    rw [List.length_cons, List.range'_succ, each]
    cases hd : fixRow G w.rd d with
    | ok d' =>
      have h1 : (body G pre.length).res w = .ok () := by
        show ((read _).bind _).res w = _
        rw [res_read_bind]
        simp only [hget, hd]
        rfl
      have h2 : (body G pre.length).after w = { w with rd := (pre ++ [d']) ++ l } := by
        show ((read _).bind _).after w = _
        rw [after_read_bind]
        simp only [hget, hd]
        show ({ w with rd := w.rd.set pre.length d' } : Bw N K) = _
        congr 1
        rw [hw]
        simp
      obtain ⟨e1, e2⟩ := step (f := fun _ => each (List.range' (pre.length + 1) l.length) (body G)) h1 h2
      have hnode : ((pre ++ [d']) ++ l).map (·.node) = w.rd.map (·.node) := by
        have := fixRow_cols hd
        rw [hw]
        have hn : d'.node = d.node := congrArg Prod.fst this
        simp [hn]
      have hlen : (pre ++ [d']).length = pre.length + 1 := by simp
      have ih' := ih (pre ++ [d']) { w with rd := (pre ++ [d']) ++ l } rfl
      rw [hlen] at ih'
      simp only [fixRows_table hnode, fixRow_table hnode] at ih'
      rw [Prog.seq, e1, e2]
      rcases ih' with ⟨rows, i1, i2, i3⟩ | ⟨k, rec, done, i1, i2, i3, i4, i5, i6, i7⟩
      · refine .inl ⟨d' :: rows, ?_, i2, ?_⟩
        · rw [fixRows, hd, Res.bind_ok, i1]; rfl
        · rw [i3]; simp
      · refine .inr ⟨k + 1, rec, d' :: done, by simpa using i1, ?_, i3, ?_, i5, ?_, ?_⟩
        · rw [List.take_succ_cons, fixRows, hd, Res.bind_ok, i2]; rfl
        · intro rows hr
          rw [fixRows, hd, Res.bind_ok] at hr
          obtain ⟨l2, hl2, _⟩ := Res.map_eq_ok.1 hr
          exact i4 l2 hl2
        · rw [i6, fixRows, hd, Res.bind_ok]
          cases fixRows G w.rd l <;> rfl
        · rw [i7]; simp
    | err e =>
      have h1 : (body G pre.length).res w = .err e := by
        show ((read _).bind _).res w = _
        rw [res_read_bind]
        simp only [hget, hd]
        rfl
      have h2 : (body G pre.length).after w = w := by
        show ((read _).bind _).after w = _
        rw [after_read_bind]
        simp only [hget, hd]
      obtain ⟨e1, e2, _⟩ := bind_of_err (f := fun _ => each (List.range' (pre.length + 1) l.length) (body G)) h1
      rw [Prog.seq, e1, e2, h2]
      refine .inr ⟨0, d, [], rfl, rfl, ?_, ?_, ?_, ?_, ?_⟩
      · intro x hx; rw [hd] at hx; cases hx
      · intro rows hr; rw [fixRows, hd] at hr; cases hr
      · rw [hd]; rfl
      · rw [fixRows, hd]; rfl
      · simp [← hw]
    | hang =>
      have h1 : (body G pre.length).res w = .hang := by
        show ((read _).bind _).res w = _
        rw [res_read_bind]
        simp only [hget, hd]
        rfl
      have h2 : (body G pre.length).after w = w := by
        show ((read _).bind _).after w = _
        rw [after_read_bind]
        simp only [hget, hd]
      obtain ⟨e1, e2, _⟩ := bind_of_hang (f := fun _ => each (List.range' (pre.length + 1) l.length) (body G)) h1
      rw [Prog.seq, e1, e2, h2]
      refine .inr ⟨0, d, [], rfl, rfl, ?_, ?_, ?_, ?_, ?_⟩
      · intro x hx; rw [hd] at hx; cases hx
      · intro rows hr; rw [fixRows, hd] at hr; cases hr
      · rw [hd]; rfl
      · rw [fixRows, hd]; rfl
      · simp [← hw]

theorem fixGiven_run (G : SGrid N K) (w : Bw N K) :
    ((∃ rows, fixRows G w.rd w.rd = .ok rows ∧ (fixGiven G).res w = .ok () ∧
        (fixGiven G).after w = { w with rd := rows }) ∨
     (∃ k rec done, w.rd[k]? = some rec ∧ fixRows G w.rd (w.rd.take k) = .ok done ∧
        (∀ x, fixRow G w.rd rec ≠ .ok x) ∧ (∀ rows, fixRows G w.rd w.rd ≠ .ok rows) ∧
        (fixGiven G).res w = (fixRows G w.rd w.rd).map (fun _ => ()) ∧
        (fixGiven G).after w = { w with rd := done ++ w.rd.drop k })) := by
  have h := loop_run G w.rd [] w rfl
  simp only [List.length_nil, List.nil_append, ← List.range_eq_range'] at h
  have e1 : (fixGiven G).res w = (each (List.range w.rd.length) (body G)).res w := rfl
  have e2 : (fixGiven G).after w = (each (List.range w.rd.length) (body G)).after w := rfl
  rw [e1, e2]
  rcases h with h | ⟨k, rec, done, i1, i2, i3, i4, i5, i6, i7⟩
  · exact .inl h
  · exact .inr ⟨k, rec, done, i1, i2, i3, i4, i6, i7⟩

/-! ### The segment table -/

omit [LinearOrder K] in
theorem fixSeg_eq (s : SRow K) :
    (segDefaults K).foldl (fun s e => { s with param := update s.param e.1 e.2 }) s = fixSeg s := by
  unfold fixSeg segDefaults
  simp only [List.foldl_cons, List.foldl_nil]
  congr 1
  funext k
  simp only [update_apply, Dict.get?]
  by_cases h1 : k = "etsw"
  · subst h1; simp
  by_cases h2 : k = "flow"
  · subst h2; simp
  by_cases h3 : k = "icalc"
  · subst h3; simp
  by_cases h4 : k = "iprior"
  · subst h4; simp
  by_cases h5 : k = "pptsw"
  · subst h5; simp
  by_cases h6 : k = "roughch"
  · subst h6; simp
  by_cases h7 : k = "runoff"
  · subst h7; simp
  by_cases h8 : k = "width1"
  · subst h8; simp
  by_cases h9 : k = "width2"
  · subst h9; simp
  simp [h1, h2, h3, h4, h5, h6, h7, h8, h9, eq_comm]

omit [LinearOrder K] in
theorem fixSeg_fixSeg (s : SRow K) : fixSeg (fixSeg s) = fixSeg s := by
  unfold fixSeg
  congr 1
  funext k
  show (Dict.get? (segDefaults K) k).getD ((Dict.get? (segDefaults K) k).getD (s.param k)) = _
  cases Dict.get? (segDefaults K) k <;> rfl

omit [LinearOrder K] in
theorem fixGivenSegs_run (w : Bw N K) : (fixGivenSegs : Prog (Bw N K) Unit).res w = .ok () ∧
    (fixGivenSegs : Prog (Bw N K) Unit).after w = { w with sd := w.sd.map fixSeg } := by
  have key : ∀ (l : List (String × K)) (w : Bw N K),
      (each l fun e => write fun w : Bw N K => { w with sd := w.sd.map fun s => { s with param := update s.param e.1 e.2 } }).res w
        = .ok () ∧
      (each l fun e => write fun w : Bw N K => { w with sd := w.sd.map fun s => { s with param := update s.param e.1 e.2 } }).after w
        = { w with sd := w.sd.map fun s => l.foldl (fun s e => { s with param := update s.param e.1 e.2 }) s } := by
    intro l
    induction l with
    | nil => intro w; exact ⟨rfl, by simp [each]⟩
    | cons e l ih =>
      intro w
      obtain ⟨i1, i2⟩ := ih { w with sd := w.sd.map fun s => { s with param := update s.param e.1 e.2 } }
      rw [each]
      refine ⟨by rw [res_write_seq, i1], ?_⟩
      rw [after_write_seq, i2]
      simp
  obtain ⟨k1, k2⟩ := key (segDefaults K) w
  refine ⟨k1, k2.trans ?_⟩
  simp only [fixSeg_eq]

/-! ### The whole method -/

theorem bind_res_ok {σ α β : Type*} {p : Prog σ α} {f : α → Prog σ β} {s : σ} {b : β} (h : (p.bind f).res s = .ok b) :
    ∃ a, p.res s = .ok a ∧ (f a).res (p.after s) = .ok b ∧ (p.bind f).after s = (f a).after (p.after s) := by
  rw [res_bind] at h
  obtain ⟨a, h1, h2⟩ := Res.bind_eq_ok.1 h
  exact ⟨a, h1, h2, (bind_of_ok h1).2.1⟩

omit [Field K] [LinearOrder K] in
theorem after_zoom {α : Type*} (p : Prog (Sm N) α) (w : Bw N K) : (zoom p).after w = { w with sm := p.after w.sm } := by
  unfold Prog.after zoom latest
  rw [List.getLastD_eq_getLast?, List.getLastD_eq_getLast?, List.getLast?_map]
  cases (p w.sm).1.getLast? <;> rfl

omit [Field K] [LinearOrder K] in
theorem inv_zoom {α : Type*} (p : Prog (Sm N) α) (rd : List (Row K)) (sd : List (SRow K)) (ir : Fin N → ℤ) :
    Inv (fun w : Bw N K => w.rd = rd ∧ w.sd = sd ∧ w.ir = ir) (zoom p) := by
  intro w hw s hs
  obtain ⟨a, _, rfl⟩ := List.mem_map.1 hs
  exact hw

/-- a part of the method that does not touch the arrays of the caller -/
def OnSm {α : Type*} (p : Prog (Bw N K) α) : Prop := ∀ w, ∃ s, p.after w = { w with sm := s }

omit [Field K] [LinearOrder K] in
theorem onSm_zoom {α β : Type*} (p : Prog (Sm N) α) (f : α → β) :
    OnSm (K := K) ((zoom p).bind fun t => pure (f t)) := fun w => by
  refine ⟨p.after w.sm, ?_⟩
  rw [after_bind_still (fun a => still_pure (f a)) w, after_zoom]

/-- the method when it returns with `apply_defaults` -/
theorem builder_ok {E : Env N} {cfuel : ℕ} {G : SGrid N K} {given : Given} {grp : Bool} {kw : List String} {w : Bw N K}
    {rows : List (Row K)} {segs : List (SRow K)} {ir : Fin N → ℤ}
    (h : (builder E cfuel G given true grp kw).res w = .ok (rows, segs, ir)) :
    (∃ t, fixRows G t t = .ok rows ∧ (given.rd = true → t = w.rd)) ∧
    (∃ t, segs = t.map fixSeg ∧ (given.sd = true → t = w.sd)) ∧ (given.ir = true → ir = w.ir) ∧
    ∃ s, (builder E cfuel G given true grp kw).after w =
      ⟨s, if given.rd = true then rows else w.rd, if given.sd = true then segs else w.sd, w.ir⟩ := by
  unfold builder at h ⊢
  obtain ⟨_, _, h, ha⟩ := bind_res_ok h
  rw [ha]
  rw [after_read] at h ⊢
  clear ha
  obtain ⟨rd, hrd, h, ha⟩ := bind_res_ok h
  rw [ha]
  clear ha
  obtain ⟨s1, hs1⟩ : ∃ s1, ((if given.rd = true then pure none else
      (zoom (reachData E G none grp)).bind fun t => pure (some t)) : Prog (Bw N K) _).after w = { w with sm := s1 } := by
    split
    · exact ⟨w.sm, rfl⟩
    · exact onSm_zoom _ _ w
  have hrd' : (given.rd = true ∧ rd = none) ∨ (given.rd = false ∧ ∃ t, rd = some t) := by
    cases hg : given.rd with
    | true => rw [hg, if_pos rfl] at hrd; cases hrd; exact .inl ⟨rfl, rfl⟩
    | false =>
      rw [hg, if_neg (by simp), res_bind] at hrd
      obtain ⟨t, _, ht⟩ := Res.bind_eq_ok.1 hrd
      cases ht
      exact .inr ⟨rfl, t, rfl⟩
  rw [hs1] at h ⊢
  obtain ⟨sd, hsd, h, ha⟩ := bind_res_ok h
  rw [ha]
  clear ha
  obtain ⟨s2, hs2⟩ : ∃ s2, ((if given.sd = true then pure none else
      (zoom (segmentData K E none grp)).bind fun t => pure (some t)) : Prog (Bw N K) _).after { w with sm := s1 } =
        { w with sm := s2 } := by
    split
    · exact ⟨s1, rfl⟩
    · exact onSm_zoom _ _ _
  have hsd' : (given.sd = true ∧ sd = none) ∨ (given.sd = false ∧ ∃ t, sd = some t) := by
    cases hg : given.sd with
    | true => rw [hg, if_pos rfl] at hsd; cases hsd; exact .inl ⟨rfl, rfl⟩
    | false =>
      rw [hg, if_neg (by simp), res_bind] at hsd
      obtain ⟨t, _, ht⟩ := Res.bind_eq_ok.1 hsd
      cases ht
      exact .inr ⟨rfl, t, rfl⟩
  rw [hs2] at h ⊢
  obtain ⟨ir', hir, h, ha⟩ := bind_res_ok h
  rw [ha]
  clear ha
  obtain ⟨s3, hs3⟩ : ∃ s3, ((if given.ir = true then read fun w => .ok w.ir else
      zoom (irun E cfuel none none grp)) : Prog (Bw N K) _).after { w with sm := s2 } = { w with sm := s3 } := by
    split
    · exact ⟨s2, rfl⟩
    · exact ⟨_, after_zoom _ _⟩
  have hir' : given.ir = true → ir' = w.ir := by
    intro hg
    rw [hg, if_pos rfl] at hir
    cases hir
    rfl
  rw [hs3] at h ⊢
  rw [if_pos rfl] at h ⊢
  obtain ⟨rows', hrows, h, ha⟩ := bind_res_ok h
  rw [ha]
  clear ha
  obtain ⟨segs', hsegs, h, ha⟩ := bind_res_ok h
  rw [ha]
  clear ha
  cases h
  have key : (∃ t, fixRows G t t = .ok rows ∧ (given.rd = true → t = w.rd)) ∧
      ((match rd with
        | none => (fixGiven G).seq <| read fun w => .ok w.rd
        | some t => read fun _ => fixRows G t t) : Prog (Bw N K) _).after { w with sm := s3 } =
      ⟨s3, if given.rd = true then rows else w.rd, w.sd, w.ir⟩ := by
    rcases hrd' with ⟨hg, rfl⟩ | ⟨hg, t, rfl⟩
    · dsimp only at hrows ⊢
      rcases fixGiven_run G { w with sm := s3 } with ⟨rows2, f1, f2, f3⟩ | ⟨k, rec, done, _, _, _, f4, f5, _⟩
      · obtain ⟨e1, e2⟩ := step (f := fun _ => read fun w : Bw N K => Res.ok w.rd) f2 f3
        rw [Prog.seq, e1] at hrows
        cases hrows
        refine ⟨⟨w.rd, f1, fun _ => rfl⟩, ?_⟩
        rw [Prog.seq, e2, hg, if_pos rfl]
        rfl
      · rw [res_seq, f5] at hrows
        obtain ⟨_, hx, _⟩ := Res.bind_eq_ok.1 hrows
        obtain ⟨x, hx, _⟩ := Res.map_eq_ok.1 hx
        exact absurd hx (f4 x)
    · refine ⟨⟨t, hrows, fun h => by simp [hg] at h⟩, ?_⟩
      rw [hg]
      rfl
  rw [key.2] at hsegs ⊢
  have key2 : (∃ t, segs = t.map fixSeg ∧ (given.sd = true → t = w.sd)) ∧
      ((match sd with
        | none => fixGivenSegs.seq <| read fun w => .ok w.sd
        | some t => pure (t.map fixSeg)) : Prog (Bw N K) _).after
          ⟨s3, if given.rd = true then rows else w.rd, w.sd, w.ir⟩ =
      ⟨s3, if given.rd = true then rows else w.rd, if given.sd = true then segs else w.sd, w.ir⟩ := by
    rcases hsd' with ⟨hg, rfl⟩ | ⟨hg, t, rfl⟩
    · dsimp only at hsegs ⊢
      obtain ⟨f1, f2⟩ := fixGivenSegs_run (K := K) (N := N) ⟨s3, if given.rd = true then rows else w.rd, w.sd, w.ir⟩
      obtain ⟨e1, e2⟩ := step (f := fun _ => read fun w : Bw N K => Res.ok w.sd) f1 f2
      rw [Prog.seq, e1] at hsegs
      cases hsegs
      refine ⟨⟨w.sd, rfl, fun _ => rfl⟩, ?_⟩
      rw [Prog.seq, e2, hg, if_pos rfl]
      rfl
    · cases hsegs
      refine ⟨⟨t, rfl, fun h => by simp [hg] at h⟩, ?_⟩
      rw [hg]
      rfl
  refine ⟨key.1, key2.1, hir', s3, ?_⟩
  rw [key2.2]
  rfl

/-! ### C100 -/

/-- **C100 is false.**  With `apply_defaults` the tables a caller passes become the tables of the returned object: strtop,
slope, strhc1 and strthick of every reach and the nine default columns of every segment are overwritten. -/
theorem C100_refuted {E : Env N} {cfuel : ℕ} {G : SGrid N K} {given : Given} {grp : Bool} {kw : List String} {w : Bw N K}
    {rows : List (Row K)} {segs : List (SRow K)} {ir : Fin N → ℤ}
    (h : (builder E cfuel G given true grp kw).res w = .ok (rows, segs, ir)) :
    (given.rd = true → ((builder E cfuel G given true grp kw).after w).rd = rows ∧
      rows.length = w.rd.length ∧ ∀ (k : ℕ) (row : Row K), w.rd[k]? = some row → ∃ n m,
        pyIndex N row.node = .ok n ∧ rows[k]? = some (fixed G row n m)) ∧
    (given.sd = true → ((builder E cfuel G given true grp kw).after w).sd = segs ∧ segs = w.sd.map fixSeg) ∧
    ((builder E cfuel G given true grp kw).after w).ir = w.ir := by
  obtain ⟨⟨t, h1, h1'⟩, ⟨u, h2, h2'⟩, _, s, hs⟩ := builder_ok h
  rw [hs]
  refine ⟨fun hg => ?_, fun hg => ?_, rfl⟩
  · have := h1' hg
    subst this
    obtain ⟨hl, hrow⟩ := fixRows_ok h1
    refine ⟨if_pos hg, hl, fun k row hk => ?_⟩
    obtain ⟨row', hk', hr⟩ := hrow k row hk
    obtain ⟨n, m, e1, _, e2⟩ := fixRow_ok hr
    exact ⟨n, m, e1, by rw [hk', e2]⟩
  · have := h2' hg
    subst this
    exact ⟨if_pos hg, h2⟩

/-- **C100 is false of failing calls as well.**  If the loop over the reaches raises at row `k`, the rows before it have
been overwritten, the others and the segment table have not. -/
theorem C100_failure_refuted (E : Env N) (cfuel : ℕ) (G : SGrid N K) (grp : Bool) (w : Bw N K)
    (h : ∀ rows, fixRows G w.rd w.rd ≠ .ok rows) :
    ∃ k rec done, w.rd[k]? = some rec ∧ (∀ x, fixRow G w.rd rec ≠ .ok x) ∧
      fixRows G w.rd (w.rd.take k) = .ok done ∧
      (∀ x, (builder E cfuel G ⟨true, true, true⟩ true grp []).res w ≠ .ok x) ∧
      (builder E cfuel G ⟨true, true, true⟩ true grp []).after w = { w with rd := done ++ w.rd.drop k } := by
  rcases fixGiven_run G w with ⟨rows, h1, _⟩ | ⟨k, rec, done, h1, h2, h3, h4, h5, h6⟩
  · exact absurd h1 (h rows)
  · refine ⟨k, rec, done, h1, h3, h2, ?_, ?_⟩
    · intro x hx
      obtain ⟨⟨t, ht, ht'⟩, _⟩ := builder_ok (rows := x.1) (segs := x.2.1) (ir := x.2.2) hx
      rw [ht' rfl] at ht
      exact h _ ht
    · have hb : (builder E cfuel G ⟨true, true, true⟩ true grp []) w =
          (((fixGiven G).seq <| read fun w => Res.ok w.rd).bind fun rows =>
            ((fixGivenSegs.seq <| read fun w => Res.ok w.sd) : Prog (Bw N K) _).bind fun segs =>
              pure (rows, segs, w.ir)) w := rfl
      have : (builder E cfuel G ⟨true, true, true⟩ true grp []).after w =
          (((fixGiven G).seq <| read fun w => Res.ok w.rd).bind fun rows =>
            ((fixGivenSegs.seq <| read fun w => Res.ok w.sd) : Prog (Bw N K) _).bind fun segs =>
              pure (rows, segs, w.ir)).after w := by
        unfold Prog.after; rw [hb]
      rw [this, ← h6, Prog.seq]
      have hno : ∀ a, (fixGiven G).res w ≠ .ok a := by
        intro a ha
        rw [h5] at ha
        obtain ⟨x, hx, _⟩ := Res.map_eq_ok.1 ha
        exact h x hx
      rw [after_bind, res_bind, after_bind]
      cases hf : (fixGiven G).res w with
      | ok a => exact absurd hf (hno a)
      | err e => rfl
      | hang => rfl

/-- What the caller can rely on about the arrays -/
structure Kept (given : Given) (w w' : Bw N K) : Prop where
  cols : w'.rd.map fixedCols = w.rd.map fixedCols
  segs : w'.sd.map (fun s => (s.nseg, s.outseg)) = w.sd.map fun s => (s.nseg, s.outseg)
  params : ∀ k, (Dict.get? (segDefaults K) k) = none → w'.sd.map (fun s => s.param k) = w.sd.map fun s => s.param k
  ir : w'.ir = w.ir
  rd : given.rd = false → w'.rd = w.rd
  sd : given.sd = false → w'.sd = w.sd

theorem kept_zoom {α : Type*} (given : Given) (w : Bw N K) (p : Prog (Sm N) α) : Inv (Kept given w) (zoom p) := by
  intro w' hw s hs
  obtain ⟨a, _, rfl⟩ := List.mem_map.1 hs
  exact ⟨hw.cols, hw.segs, hw.params, hw.ir, hw.rd, hw.sd⟩

/-- **C100, what holds.**  Whenever the call is over or cut off: cells, segment and reach numbers, lengths and reach IDs of
the reach table, numbers and outlet segments of the segment table, all its columns that have no default, and the irunbnd
array are as before, row by row; a table that was not passed is never touched. -/
theorem C100_columns_partial (E : Env N) (cfuel : ℕ) (G : SGrid N K) (given : Given) (dflt grp : Bool) (kw : List String)
    (w : Bw N K) (k : ℕ) : Kept given w ((builder E cfuel G given dflt grp kw).cut w k) := by
  have hrefl : ∀ w : Bw N K, Kept given w w := fun w => ⟨rfl, rfl, fun _ _ => rfl, rfl, fun _ => rfl, fun _ => rfl⟩
  suffices hinv : Inv (Kept given w) (builder E cfuel G given dflt grp kw) from hinv.cut (hrefl w) k
  unfold builder
  refine inv_bind (inv_read _) fun _ _ => inv_bind ?_ fun rd hrd => inv_bind ?_ fun sd hsd => inv_bind ?_ fun ir _ => ?_
  · split
    · exact inv_pure _
    · exact inv_bind (kept_zoom _ _ _) fun _ _ => inv_pure _
  · split
    · exact inv_pure _
    · exact inv_bind (kept_zoom _ _ _) fun _ _ => inv_pure _
  · split
    · exact inv_read _
    · exact kept_zoom _ _ _
  · split
    · refine inv_bind ?_ fun rows _ => inv_bind ?_ fun segs _ => inv_pure _
      · cases rd with
        | some t => exact inv_read _
        | none =>
          have hg : given.rd = true := by
            obtain ⟨s, _, hs⟩ := hrd
            by_contra hc
            rw [if_neg hc, res_bind] at hs
            obtain ⟨t, _, ht⟩ := Res.bind_eq_ok.1 hs
            cases ht
          refine inv_seq (inv_bind (inv_read _) fun n _ => inv_each _ fun ix _ => ?_) (inv_read _)
          intro w' hw s hs
          have hb := hs
          cases hget : w'.rd[ix]? with
          | none => simp [Prog.bind, Prog.read, hget] at hs
          | some rec =>
            cases hfix : fixRow G w'.rd rec with
            | ok row =>
              simp [Prog.bind, Prog.read, hget, hfix, write] at hs
              subst hs
              refine ⟨?_, hw.segs, hw.params, hw.ir, fun h => by simp [hg] at h, hw.sd⟩
              rw [← hw.cols]
              show (w'.rd.set ix row).map fixedCols = _
              rw [List.map_set, fixRow_cols hfix]
              refine List.ext_getElem? fun i => ?_
              rw [List.getElem?_set]
              split
              · rename_i hi
                subst hi
                rw [List.getElem?_map, hget]
                split
                · rfl
                · rename_i hlt
                  rw [List.length_map] at hlt
                  rw [List.getElem?_eq_none (by omega)] at hget
                  cases hget
              · rfl
            | err e => simp [Prog.bind, Prog.read, hget, hfix] at hs
            | hang => simp [Prog.bind, Prog.read, hget, hfix] at hs
      · cases sd with
        | some t => exact inv_pure _
        | none =>
          have hg : given.sd = true := by
            obtain ⟨s, _, hs⟩ := hsd
            by_contra hc
            rw [if_neg hc, res_bind] at hs
            obtain ⟨t, _, ht⟩ := Res.bind_eq_ok.1 hs
            cases ht
          refine inv_seq (inv_each _ fun e he => inv_write fun w' hw => ?_) (inv_read _)
          refine ⟨hw.cols, ?_, ?_, hw.ir, hw.rd, fun h => by simp [hg] at h⟩
          · rw [← hw.segs, List.map_map]; rfl
          · intro key hk
            rw [← hw.params key hk, List.map_map]
            refine List.map_congr_left fun s _ => ?_
            show update s.param e.1 e.2 key = _
            rw [update_of_ne]
            intro hc
            have := Dict.get?_eq_none.1 hk
            rw [hc] at this
            exact this (List.mem_map_of_mem he)
    · exact inv_read _

/-- **C100, what holds.**  Without `apply_defaults` the arrays are not modified; with any keyword other than
`group_segments` the call raises before it does anything at all. -/
theorem C100_untouched_partial (E : Env N) (cfuel : ℕ) (G : SGrid N K) (given : Given) (grp : Bool) (w : Bw N K) (k : ℕ) :
    (((builder E cfuel G given false grp []).cut w k).rd = w.rd ∧
      ((builder E cfuel G given false grp []).cut w k).sd = w.sd ∧
      ((builder E cfuel G given false grp []).cut w k).ir = w.ir) ∧
    ∀ (dflt : Bool) (name : String) (rest : List String),
      (builder E cfuel G given dflt grp (name :: rest)).cut w k = w := by
  constructor
  · refine Inv.cut (I := fun w' : Bw N K => w'.rd = w.rd ∧ w'.sd = w.sd ∧ w'.ir = w.ir) ?_ ⟨rfl, rfl, rfl⟩ k
    unfold builder
    refine inv_bind (inv_read _) fun _ _ => inv_bind ?_ fun rd hrd => inv_bind ?_ fun sd hsd => inv_bind ?_ fun ir _ => ?_
    · split
      · exact inv_pure _
      · exact inv_bind (inv_zoom _ _ _ _) fun _ _ => inv_pure _
    · split
      · exact inv_pure _
      · exact inv_bind (inv_zoom _ _ _ _) fun _ _ => inv_pure _
    · split
      · exact inv_read _
      · exact inv_zoom _ _ _ _
    · rw [if_neg (by simp)]
      exact inv_read _
  · intro dflt name rest
    unfold builder Prog.cut
    have hk : ∀ x, kwLoop (name :: rest) ≠ .ok x := by
      intro x hx
      rcases kwLoop_cons name rest with h | h <;> rw [h] at hx <;> cases hx
    cases hl : kwLoop (name :: rest) with
    | ok x => exact absurd hl (hk x)
    | err e => simp [Prog.bind, Prog.read, hl]
    | hang => simp [Prog.bind, Prog.read, hl]

/-! ### C101 -/

theorem fixRow_fixRow {G : SGrid N K} {tbl : List (Row K)} {rec row : Row K} (h : fixRow G tbl rec = .ok row) :
    fixRow G tbl row = .ok row := by
  have h0 := h
  unfold fixRow at h
  obtain ⟨nd, h1, h⟩ := Res.bind_eq_ok.1 h
  obtain ⟨n, h2, h⟩ := Res.bind_eq_ok.1 h
  obtain ⟨m, h3, h⟩ := Res.map_eq_ok.1 h
  subst h
  unfold fixRow
  dsimp only
  rw [h1, Res.bind_ok, h2, Res.bind_ok, h3]
  rfl

theorem fixRows_fixRows {G : SGrid N K} {tbl rows : List (Row K)} (h : fixRows G tbl tbl = .ok rows) :
    fixRows G rows rows = .ok rows := by
  have key : ∀ l l', fixRows G tbl l = .ok l' → l'.map (·.node) = l.map (·.node) ∧ fixRows G tbl l' = .ok l' := by
    intro l
    induction l with
    | nil => intro l' h; cases h; exact ⟨rfl, rfl⟩
    | cons d l ih =>
      intro l' h
      rw [fixRows] at h
      obtain ⟨d', hd, h⟩ := Res.bind_eq_ok.1 h
      obtain ⟨l2, hl2, rfl⟩ := Res.map_eq_ok.1 h
      obtain ⟨i1, i2⟩ := ih l2 hl2
      refine ⟨?_, ?_⟩
      · rw [List.map_cons, List.map_cons, i1]
        have hn : d'.node = d.node := congrArg Prod.fst (fixRow_cols hd)
        rw [hn]
      · rw [fixRows, fixRow_fixRow hd, Res.bind_ok, i2]; rfl
  obtain ⟨k1, k2⟩ := key tbl rows h
  rw [fixRows_table k1, k2]

/-- **C101.**  Passing the three tables of a returned builder object to the builder again gives the same tables and changes
nothing: neither the tables nor the stream object, however they were obtained. -/
theorem C101_idempotent {E : Env N} {cfuel : ℕ} {G : SGrid N K} {given : Given} {grp grp' : Bool} {kw : List String}
    {w : Bw N K} {rows : List (Row K)} {segs : List (SRow K)} {ir : Fin N → ℤ}
    (h : (builder E cfuel G given true grp kw).res w = .ok (rows, segs, ir)) (sm : Sm N) :
    (builder E cfuel G ⟨true, true, true⟩ true grp' []).res ⟨sm, rows, segs, ir⟩ = .ok (rows, segs, ir) ∧
    (builder E cfuel G ⟨true, true, true⟩ true grp' []).after ⟨sm, rows, segs, ir⟩ = ⟨sm, rows, segs, ir⟩ := by
  obtain ⟨⟨t, h1, _⟩, ⟨u, h2, _⟩, _, _⟩ := builder_ok h
  have hr := fixRows_fixRows h1
  have hs : segs.map fixSeg = segs := by
    rw [h2, List.map_map]
    exact List.map_congr_left fun s _ => fixSeg_fixSeg s
  have hb : (builder E cfuel G ⟨true, true, true⟩ true grp' []) ⟨sm, rows, segs, ir⟩ =
      (((fixGiven G).seq <| read fun w => Res.ok w.rd).bind fun rows =>
        ((fixGivenSegs.seq <| read fun w => Res.ok w.sd) : Prog (Bw N K) _).bind fun segs =>
          pure (rows, segs, ir)) ⟨sm, rows, segs, ir⟩ := rfl
  unfold Prog.res Prog.after
  rw [hb]
  show Prog.res _ _ = _ ∧ Prog.after _ _ = _
  rcases fixGiven_run G ⟨sm, rows, segs, ir⟩ with ⟨rows2, f1, f2, f3⟩ | ⟨k, rec, done, _, _, _, f4, _⟩
  · rw [hr] at f1
    cases f1
    obtain ⟨a1, a2⟩ := step (f := fun _ => read fun w : Bw N K => Res.ok w.rd) f2 f3
    obtain ⟨b1, b2⟩ := step (p := (fixGiven G).seq <| read fun w => Res.ok w.rd)
      (f := fun rows => ((fixGivenSegs.seq <| read fun w => Res.ok w.sd) : Prog (Bw N K) _).bind fun segs =>
          pure (rows, segs, ir)) a1 a2
    obtain ⟨g1, g2⟩ := fixGivenSegs_run (K := K) (N := N) ⟨sm, rows, segs, ir⟩
    obtain ⟨c1, c2⟩ := step (f := fun _ => read fun w : Bw N K => Res.ok w.sd) g1 g2
    obtain ⟨d1, d2⟩ := step (p := fixGivenSegs.seq <| read fun w => Res.ok w.sd)
      (f := fun segs => (pure (rows, segs, ir) : Prog (Bw N K) _)) c1 c2
    rw [b1, b2]
    refine ⟨d1.trans ?_, d2.trans ?_⟩
    · show Res.ok (rows, segs.map fixSeg, ir) = _
      rw [hs]
    · show (⟨sm, rows, segs.map fixSeg, ir⟩ : Bw N K) = _
      rw [hs]
  · exact absurd hr (f4 rows)

/-! ### A concrete call -/

/-- two reaches of the grid `G4`, with elevations and slopes set by the user, and one segment of width 3 -/
def w4 : Bw 4 ℚ := ⟨Sm.new, [⟨0, 0, 0, 0, 1, 1, 1, some 77, some (1 / 2), 5, 6, 1, 2⟩, ⟨1, 0, 0, 1, 1, 2, 1, some 78, some (1 / 3), 5, 6, 2, 3⟩],
  [⟨1, 0, fun _ => 3⟩], fun _ => 1⟩

/-- the same with a node number outside the grid in the second row -/
def w4' : Bw 4 ℚ := { w4 with rd := [⟨0, 0, 0, 0, 1, 1, 1, some 77, some (1 / 2), 5, 6, 1, 1⟩,
  ⟨9, 0, 0, 1, 1, 2, 1, some 78, some (1 / 3), 5, 6, 2, 3⟩] }

theorem C100_refuted_concrete :
    ((builder E4 10 G4 ⟨true, true, true⟩ true true []).res w4).map (fun r => r.1.map (·.strthick)) = .ok [1, 1] ∧
    (((builder E4 10 G4 ⟨true, true, true⟩ true true []).after w4).rd.map fun r => (r.strthick, r.strhc1)) =
      [(1, 1), (1, 1)] ∧
    (((builder E4 10 G4 ⟨true, true, true⟩ true true []).after w4).sd.map fun r => r.param "width1") = [10] ∧
    ((builder E4 10 G4 ⟨true, true, true⟩ true true []).res w4').map (fun _ => ()) = .err .indexError ∧
    (((builder E4 10 G4 ⟨true, true, true⟩ true true []).after w4').rd.map fun r => (r.strthick, r.strhc1)) =
      [(1, 1), (5, 6)] := by
  decide +kernel

end Dany.Torn
