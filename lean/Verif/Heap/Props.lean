import Verif.Heap.Model
import Mathlib.Tactic.SplitIfs
import Mathlib.Data.Fin.VecNotation
import Mathlib.Data.Fintype.Basic

/-!
# C91 – C94: sharing of arrays
-/

namespace Dany.Heap

variable {N : ℕ} {V G T : Type*} {A : Algo N V G T} {w w' : World N V G} {out : Option ℕ}

/-! ### Specification -/

/-- The array `r` is held by one of the objects. -/
def Held (w : World N V G) (r : ℕ) : Prop :=
  (∃ f, w.fd = some f ∧ (f.dem = r ∨ f.fdir = some r ∨ f.facc = some r)) ∨
    ∃ s, w.st = some s ∧ (s.fdir = some r ∨ s.facc = some r ∨ s.sa = some r)

/-- References held by objects exist. -/
def WF (w : World N V G) : Prop := ∀ r, Held w r → r < w.heap.length

/-- contents of an optional reference -/
def val (h : List (Fin N → V)) (r : Option ℕ) : Option (Fin N → V) := r.bind fun k => h[k]?

/-- The objects as values: `aw` is what the objects of `w` amount to when references are followed. -/
structure Abs (w : World N V G) (aw : AWorld N V G) : Prop where
  fd : match w.fd, aw.fd with
    | none, none => True
    | some f, some a => w.heap[f.dem]? = some a.dem ∧ val w.heap f.fdir = a.fdir ∧
        val w.heap f.facc = a.facc
    | _, _ => False
  st : match w.st, aw.st with
    | none, none => True
    | some s, some a => val w.heap s.fdir = a.fdir ∧ val w.heap s.facc = a.facc ∧
        val w.heap s.sa = a.sa ∧ s.graph = a.graph
    | _, _ => False

/-- The call by value that corresponds to an operation: nothing for the client's own array operations. -/
inductive Arg (h : List (Fin N → V)) : Op N V T → Option (AOp N V T) → Prop
  | alloc (a) : Arg h (.alloc a) none
  | write (r i v) : Arg h (.write r i v) none
  | newFd {r a} : h[r]? = some a → Arg h (.newFd r) (some (.newFd a))
  | getDem : Arg h .getDem (some .getDem)
  | flowDirections : Arg h .flowDirections (some .flowDirections)
  | getDirs : Arg h .getDirs (some .getDirs)
  | accumulate : Arg h .accumulate (some .accumulate)
  | getAcc : Arg h .getAcc (some .getAcc)
  | newStreams : Arg h .newStreams (some .newStreams)
  | setStream {r a} : h[r]? = some a → Arg h (.setStream r) (some (.setStream a))
  | delineate (t) : Arg h (.delineate t) (some (.delineate t))
  | getStream : Arg h .getStream (some .getStream)
  | connect0 : Arg h (.connect none) (some (.connect none))
  | connect {r a} : h[r]? = some a → Arg h (.connect (some r)) (some (.connect (some a)))

/-- Client arrays: those it created and those it got from `stream_array`, until it hands them to
`set_stream_array`. -/
def ownAfter (own : List ℕ) (op : Op N V T) (out : Option ℕ) : List ℕ :=
  match op, out with
  | .alloc _, some r => r :: own
  | .getStream, some r => r :: own
  | .setStream r, _ => own.filter (· ≠ r)
  | _, _ => own

/-- A program that starts in `w`, writes only into its own arrays and ends in `w'`, having made the calls
`tr`, each with the value it returned. -/
inductive Exec (A : Algo N V G T) : World N V G → List ℕ → List (AOp N V T × Option (Fin N → V)) →
    World N V G → Prop
  | done (w : World N V G) (own : List ℕ) : Exec A w own [] w
  | client {w own op out w1 tr w2} : step A w op = .ok (w1, out) → Arg w.heap op none →
      (∀ r i v, op = .write r i v → r ∈ own) → Exec A w1 (ownAfter own op out) tr w2 →
      Exec A w own tr w2
  | call {w own op aop out w1 tr w2} : step A w op = .ok (w1, out) → Arg w.heap op (some aop) →
      Exec A w1 (ownAfter own op out) tr w2 → Exec A w own ((aop, val w1.heap out) :: tr) w2

/-- The same calls by value. -/
inductive ARun (A : Algo N V G T) : AWorld N V G → List (AOp N V T × Option (Fin N → V)) →
    AWorld N V G → Prop
  | done (w : AWorld N V G) : ARun A w [] w
  | call {w aop o w1 tr w2} : astep A w aop = .ok (w1, o) → ARun A w1 tr w2 → ARun A w ((aop, o) :: tr) w2

/-! ### Lemmas -/

theorem load_ok {h : List (Fin N → V)} {r : ℕ} {a : Fin N → V} : load h r = .ok a ↔ h[r]? = some a := by
  unfold load
  cases h[r]? <;> simp

theorem attr_ok {α : Type*} {x : Option α} {a : α} : attr x = .ok a ↔ x = some a := by
  cases x <;> simp [attr]

theorem loadOpt_ok {h : List (Fin N → V)} {r : Option ℕ} {a : Option (Fin N → V)}
    (hr : loadOpt h r = .ok a) : val h r = a := by
  cases r with
  | none => simp only [loadOpt, Res.ok.injEq] at hr; exact hr
  | some k =>
    simp only [loadOpt] at hr
    obtain ⟨x, hx, rfl⟩ := Res.map_eq_ok.1 hr
    exact load_ok.1 hx

theorem val_append {h : List (Fin N → V)} {r : Option ℕ} (hr : ∀ k, r = some k → k < h.length)
    (l : List (Fin N → V)) : val (h ++ l) r = val h r := by
  cases r with
  | none => rfl
  | some k => simp only [val, Option.bind_some]; rw [List.getElem?_append_left (hr k rfl)]

theorem val_set {h : List (Fin N → V)} {r : Option ℕ} {k : ℕ} (hr : r ≠ some k) (a : Fin N → V) :
    val (h.set k a) r = val h r := by
  cases r with
  | none => rfl
  | some j =>
    simp only [val, Option.bind_some]
    rw [List.getElem?_set_ne]
    rintro rfl; exact hr rfl

theorem val_new (h : List (Fin N → V)) (a : Fin N → V) : val (h ++ [a]) (some h.length) = some a := by
  simp [val]

/-- arrays stay as they are: every operation of an object only adds arrays -/
theorem step_frame (h : step A w op = .ok (w', out)) (hop : ∀ r i v, op ≠ .write r i v) :
    ∃ l, w'.heap = w.heap ++ l := by
  cases op with
  | alloc a => simp only [step, Res.ok.injEq, Prod.mk.injEq] at h; obtain ⟨rfl, _⟩ := h; exact ⟨_, rfl⟩
  | write r i v => exact absurd rfl (hop r i v)
  | newFd r =>
    obtain ⟨a, _, he⟩ := Res.map_eq_ok.1 h
    simp only [Prod.mk.injEq] at he; obtain ⟨rfl, _⟩ := he; exact ⟨_, rfl⟩
  | getDem =>
    obtain ⟨a, _, he⟩ := Res.map_eq_ok.1 h
    simp only [Prod.mk.injEq] at he; obtain ⟨rfl, _⟩ := he; exact ⟨[], by simp⟩
  | flowDirections =>
    obtain ⟨f, _, h⟩ := Res.bind_eq_ok.1 h
    obtain ⟨dem, _, h⟩ := Res.bind_eq_ok.1 h
    obtain ⟨a, _, he⟩ := Res.map_eq_ok.1 h
    simp only [Prod.mk.injEq] at he; obtain ⟨rfl, _⟩ := he; exact ⟨_, rfl⟩
  | getDirs =>
    obtain ⟨f, _, h⟩ := Res.bind_eq_ok.1 h
    obtain ⟨a, _, he⟩ := Res.map_eq_ok.1 h
    simp only [Prod.mk.injEq] at he; obtain ⟨rfl, _⟩ := he; exact ⟨[], by simp⟩
  | accumulate =>
    obtain ⟨f, _, h⟩ := Res.bind_eq_ok.1 h
    obtain ⟨r, _, h⟩ := Res.bind_eq_ok.1 h
    obtain ⟨dem, _, h⟩ := Res.bind_eq_ok.1 h
    obtain ⟨a, _, he⟩ := Res.map_eq_ok.1 h
    simp only [Prod.mk.injEq] at he; obtain ⟨rfl, _⟩ := he; exact ⟨_, rfl⟩
  | getAcc =>
    obtain ⟨f, _, h⟩ := Res.bind_eq_ok.1 h
    obtain ⟨a, _, he⟩ := Res.map_eq_ok.1 h
    simp only [Prod.mk.injEq] at he; obtain ⟨rfl, _⟩ := he; exact ⟨[], by simp⟩
  | newStreams =>
    obtain ⟨a, _, he⟩ := Res.map_eq_ok.1 h
    simp only [Prod.mk.injEq] at he; obtain ⟨rfl, _⟩ := he; exact ⟨[], by simp⟩
  | setStream r =>
    obtain ⟨f, _, h⟩ := Res.bind_eq_ok.1 h
    obtain ⟨a, _, he⟩ := Res.map_eq_ok.1 h
    simp only [Prod.mk.injEq] at he; obtain ⟨rfl, _⟩ := he; exact ⟨[], by simp⟩
  | delineate t =>
    obtain ⟨f, _, h⟩ := Res.bind_eq_ok.1 h
    obtain ⟨r, _, h⟩ := Res.bind_eq_ok.1 h
    obtain ⟨a, _, he⟩ := Res.map_eq_ok.1 h
    simp only [Prod.mk.injEq] at he; obtain ⟨rfl, _⟩ := he; exact ⟨_, rfl⟩
  | getStream =>
    obtain ⟨s, _, h⟩ := Res.bind_eq_ok.1 h
    split at h
    · cases h
    · obtain ⟨a, _, he⟩ := Res.map_eq_ok.1 h
      simp only [Prod.mk.injEq] at he; obtain ⟨rfl, _⟩ := he; exact ⟨_, rfl⟩
  | connect arg =>
    obtain ⟨s, _, h⟩ := Res.bind_eq_ok.1 h
    dsimp only at h
    split at h
    · cases h
    · obtain ⟨src, _, h⟩ := Res.bind_eq_ok.1 h
      obtain ⟨dirs, _, h⟩ := Res.bind_eq_ok.1 h
      obtain ⟨res, _, he⟩ := Res.map_eq_ok.1 h
      simp only [Prod.mk.injEq] at he
      obtain ⟨rfl, _⟩ := he
      exact ⟨[res.1], by simp [store]⟩

theorem held_append {l : List (Fin N → V)} (hwf : WF w) :
    (∀ f, w.fd = some f → f.dem < w.heap.length ∧ (∀ k, f.fdir = some k → k < w.heap.length) ∧
      (∀ k, f.facc = some k → k < w.heap.length)) ∧
    (∀ s, w.st = some s → (∀ k, s.fdir = some k → k < w.heap.length) ∧
      (∀ k, s.facc = some k → k < w.heap.length) ∧ (∀ k, s.sa = some k → k < w.heap.length)) :=
  ⟨fun f hf => ⟨hwf _ (.inl ⟨f, hf, .inl rfl⟩), fun k hk => hwf _ (.inl ⟨f, hf, .inr (.inl hk)⟩),
    fun k hk => hwf _ (.inl ⟨f, hf, .inr (.inr hk)⟩)⟩,
   fun s hs => ⟨fun k hk => hwf _ (.inr ⟨s, hs, .inl hk⟩), fun k hk => hwf _ (.inr ⟨s, hs, .inr (.inl hk)⟩),
    fun k hk => hwf _ (.inr ⟨s, hs, .inr (.inr hk)⟩)⟩⟩

/-- More arrays do not change what the objects amount to. -/
theorem Abs.append {aw : AWorld N V G} (hwf : WF w) (h : Abs w aw) (l : List (Fin N → V)) :
    Abs ⟨w.heap ++ l, w.fd, w.st⟩ aw := by
  obtain ⟨h1, h2⟩ := h
  obtain ⟨k1, k2⟩ := held_append (l := l) hwf
  constructor
  · dsimp only
    cases hf : w.fd with
    | none => rw [hf] at h1; cases ha : aw.fd <;> rw [ha] at h1 <;> exact h1
    | some f =>
      rw [hf] at h1
      cases ha : aw.fd with
      | none => rw [ha] at h1; exact h1
      | some a =>
        rw [ha] at h1
        obtain ⟨e1, e2, e3⟩ := k1 f hf
        dsimp only at h1 ⊢
        rw [List.getElem?_append_left e1, val_append e2, val_append e3]
        exact h1
  · dsimp only
    cases hf : w.st with
    | none => rw [hf] at h2; cases ha : aw.st <;> rw [ha] at h2 <;> exact h2
    | some f =>
      rw [hf] at h2
      cases ha : aw.st with
      | none => rw [ha] at h2; exact h2
      | some a =>
        rw [ha] at h2
        obtain ⟨e1, e2, e3⟩ := k2 f hf
        dsimp only at h2 ⊢
        rw [val_append e1, val_append e2, val_append e3]
        exact h2

/-- Writing into an array no object holds does not change what the objects amount to. -/
theorem Abs.write {aw : AWorld N V G} {r : ℕ} (h : Abs w aw) (hr : ¬ Held w r) (a : Fin N → V) :
    Abs ⟨w.heap.set r a, w.fd, w.st⟩ aw := by
  obtain ⟨h1, h2⟩ := h
  constructor
  · dsimp only
    cases hf : w.fd with
    | none => rw [hf] at h1; cases ha : aw.fd <;> rw [ha] at h1 <;> exact h1
    | some f =>
      rw [hf] at h1
      cases ha : aw.fd with
      | none => rw [ha] at h1; exact h1
      | some a =>
        rw [ha] at h1
        dsimp only at h1 ⊢
        rw [List.getElem?_set_ne (fun he => hr (.inl ⟨f, hf, .inl he.symm⟩)),
          val_set (fun he => hr (.inl ⟨f, hf, .inr (.inl he)⟩)),
          val_set (fun he => hr (.inl ⟨f, hf, .inr (.inr he)⟩))]
        exact h1
  · dsimp only
    cases hf : w.st with
    | none => rw [hf] at h2; cases ha : aw.st <;> rw [ha] at h2 <;> exact h2
    | some f =>
      rw [hf] at h2
      cases ha : aw.st with
      | none => rw [ha] at h2; exact h2
      | some a =>
        rw [ha] at h2
        dsimp only at h2 ⊢
        rw [val_set (fun he => hr (.inr ⟨f, hf, .inl he⟩)),
          val_set (fun he => hr (.inr ⟨f, hf, .inr (.inl he)⟩)),
          val_set (fun he => hr (.inr ⟨f, hf, .inr (.inr he)⟩))]
        exact h2

theorem Abs.fd_some {aw : AWorld N V G} (h : Abs w aw) {f : Fd} (hf : w.fd = some f) :
    ∃ a, aw.fd = some a ∧ w.heap[f.dem]? = some a.dem ∧ val w.heap f.fdir = a.fdir ∧
      val w.heap f.facc = a.facc := by
  have := h.fd
  rw [hf] at this
  cases ha : aw.fd with
  | none => rw [ha] at this; exact this.elim
  | some a => rw [ha] at this; exact ⟨a, rfl, this⟩

theorem Abs.st_some {aw : AWorld N V G} (h : Abs w aw) {f : St G} (hf : w.st = some f) :
    ∃ a, aw.st = some a ∧ val w.heap f.fdir = a.fdir ∧ val w.heap f.facc = a.facc ∧
        val w.heap f.sa = a.sa ∧ f.graph = a.graph := by
  have := h.st
  rw [hf] at this
  cases ha : aw.st with
  | none => rw [ha] at this; exact this.elim
  | some a => rw [ha] at this; exact ⟨a, rfl, this⟩

/-- Replace the flow-direction object. -/
theorem Abs.withFd {aw : AWorld N V G} (h : Abs w aw) {f : Fd} {a : AFd N V}
    (h1 : w.heap[f.dem]? = some a.dem) (h2 : val w.heap f.fdir = a.fdir) (h3 : val w.heap f.facc = a.facc) :
    Abs ⟨w.heap, some f, w.st⟩ ⟨some a, aw.st⟩ := ⟨⟨h1, h2, h3⟩, h.st⟩

/-- Replace the stream object. -/
theorem Abs.withSt {aw : AWorld N V G} (h : Abs w aw) {s : St G} {a : ASt N V G}
    (h1 : val w.heap s.fdir = a.fdir) (h2 : val w.heap s.facc = a.facc) (h3 : val w.heap s.sa = a.sa)
    (h4 : s.graph = a.graph) : Abs ⟨w.heap, w.fd, some s⟩ ⟨aw.fd, some a⟩ := ⟨h.fd, ⟨h1, h2, h3, h4⟩⟩

/-- One call corresponds to one call by value. -/
theorem sim {aw : AWorld N V G} (hwf : WF w) (habs : Abs w aw) {op : Op N V T} {aop : AOp N V T}
    (harg : Arg w.heap op (some aop)) (h : step A w op = .ok (w', out)) :
    ∃ aw', astep A aw aop = .ok (aw', val w'.heap out) ∧ Abs w' aw' := by
  obtain ⟨k1, k2⟩ := held_append (l := []) hwf
  cases harg with
  | newFd ha =>
    obtain ⟨a, hl, he⟩ := Res.map_eq_ok.1 h
    rw [load_ok, ha] at hl
    obtain rfl := Option.some.inj hl
    simp only [Prod.mk.injEq] at he
    obtain ⟨rfl, rfl⟩ := he
    exact ⟨_, rfl, (habs.append hwf _).withFd (by simp) rfl rfl⟩
  | getDem =>
    obtain ⟨f, hf, he⟩ := Res.map_eq_ok.1 h
    rw [attr_ok] at hf
    obtain ⟨a, ha, e1, _, _⟩ := habs.fd_some hf
    simp only [Prod.mk.injEq] at he
    obtain ⟨rfl, rfl⟩ := he
    exact ⟨aw, by simp only [astep, ha, attr, Res.map_ok, val, Option.bind_some, e1], habs⟩
  | flowDirections =>
    obtain ⟨f, hf, h⟩ := Res.bind_eq_ok.1 h
    obtain ⟨dem, hdem, h⟩ := Res.bind_eq_ok.1 h
    obtain ⟨x, hx, he⟩ := Res.map_eq_ok.1 h
    rw [attr_ok] at hf
    rw [load_ok] at hdem
    obtain ⟨a, ha, e1, e2, e3⟩ := habs.fd_some hf
    rw [hdem] at e1
    simp only [Prod.mk.injEq] at he
    obtain ⟨rfl, rfl⟩ := he
    refine ⟨⟨some ⟨a.dem, some x, a.facc⟩, aw.st⟩, ?_, ?_⟩
    · simp only [astep, ha, attr, Res.bind_ok, ← Option.some.inj e1, hx, Res.map_ok, val_new]
    · refine (habs.append hwf [x]).withFd ?_ ?_ ?_
      · dsimp only; rw [List.getElem?_append_left (k1 f hf).1, hdem, e1]
      · exact val_new _ _
      · dsimp only; rw [val_append (k1 f hf).2.2, e3]
  | getDirs =>
    obtain ⟨f, hf, h⟩ := Res.bind_eq_ok.1 h
    obtain ⟨r, hr, he⟩ := Res.map_eq_ok.1 h
    rw [attr_ok] at hf hr
    obtain ⟨a, ha, _, e2, _⟩ := habs.fd_some hf
    simp only [Prod.mk.injEq] at he
    obtain ⟨rfl, rfl⟩ := he
    have hlt := (k1 f hf).2.1 r hr
    rw [hr] at e2
    simp only [val, Option.bind_some, List.getElem?_eq_getElem hlt] at e2
    exact ⟨aw, by simp only [astep, ha, attr, Res.bind_ok, ← e2, Res.map_ok, val, Option.bind_some,
      List.getElem?_eq_getElem hlt], habs⟩
  | accumulate =>
    obtain ⟨f, hf, h⟩ := Res.bind_eq_ok.1 h
    obtain ⟨r, hr, h⟩ := Res.bind_eq_ok.1 h
    obtain ⟨dirs, hdirs, h⟩ := Res.bind_eq_ok.1 h
    obtain ⟨x, hx, he⟩ := Res.map_eq_ok.1 h
    rw [attr_ok] at hf hr
    rw [load_ok] at hdirs
    obtain ⟨a, ha, e1, e2, e3⟩ := habs.fd_some hf
    rw [hr] at e2
    simp only [val, Option.bind_some, hdirs] at e2
    simp only [Prod.mk.injEq] at he
    obtain ⟨rfl, rfl⟩ := he
    refine ⟨⟨some ⟨a.dem, a.fdir, some x⟩, aw.st⟩, ?_, ?_⟩
    · simp only [astep, ha, attr, Res.bind_ok, ← e2, hx, Res.map_ok, val_new]
    · refine (habs.append hwf [x]).withFd ?_ ?_ ?_
      · dsimp only; rw [List.getElem?_append_left (k1 f hf).1, e1]
      · dsimp only; rw [val_append (k1 f hf).2.1, hr, ← e2]
        simp [val, hdirs]
      · exact val_new _ _
  | getAcc =>
    obtain ⟨f, hf, h⟩ := Res.bind_eq_ok.1 h
    obtain ⟨r, hr, he⟩ := Res.map_eq_ok.1 h
    rw [attr_ok] at hf hr
    obtain ⟨a, ha, _, _, e2⟩ := habs.fd_some hf
    simp only [Prod.mk.injEq] at he
    obtain ⟨rfl, rfl⟩ := he
    have hlt := (k1 f hf).2.2 r hr
    rw [hr] at e2
    simp only [val, Option.bind_some, List.getElem?_eq_getElem hlt] at e2
    exact ⟨aw, by simp only [astep, ha, attr, Res.bind_ok, ← e2, Res.map_ok, val, Option.bind_some,
      List.getElem?_eq_getElem hlt], habs⟩
  | newStreams =>
    obtain ⟨f, hf, he⟩ := Res.map_eq_ok.1 h
    rw [attr_ok] at hf
    obtain ⟨a, ha, e1, e2, e3⟩ := habs.fd_some hf
    simp only [Prod.mk.injEq] at he
    obtain ⟨rfl, rfl⟩ := he
    refine ⟨⟨aw.fd, some ⟨a.fdir, a.facc, none, none⟩⟩, ?_, ?_⟩
    · simp only [astep, ha, attr, Res.map_ok]; rfl
    · exact habs.withSt e2 e3 rfl rfl
  | setStream ha =>
    obtain ⟨s, hs, h⟩ := Res.bind_eq_ok.1 h
    obtain ⟨x, hx, he⟩ := Res.map_eq_ok.1 h
    rw [attr_ok] at hs
    obtain ⟨b, hb, e1, e2, e3, e4⟩ := habs.st_some hs
    simp only [Prod.mk.injEq] at he
    obtain ⟨rfl, rfl⟩ := he
    refine ⟨_, ?_, habs.withSt (a := ⟨b.fdir, b.facc, some _, b.graph⟩) e1 e2 ha e4⟩
    simp only [astep, hb, attr, Res.map_ok]; rfl
  | delineate t =>
    obtain ⟨s, hs, h⟩ := Res.bind_eq_ok.1 h
    obtain ⟨facc, hfacc, h⟩ := Res.bind_eq_ok.1 h
    obtain ⟨x, hx, he⟩ := Res.map_eq_ok.1 h
    rw [attr_ok] at hs
    obtain ⟨b, hb, e1, e2, e3, e4⟩ := habs.st_some hs
    have := loadOpt_ok hfacc
    rw [e2] at this
    simp only [Prod.mk.injEq] at he
    obtain ⟨rfl, rfl⟩ := he
    refine ⟨⟨aw.fd, some ⟨b.fdir, b.facc, some x, b.graph⟩⟩, ?_, ?_⟩
    · simp only [astep, hb, attr, Res.bind_ok, this, hx, Res.map_ok, val_new]
    · refine (habs.append hwf [x]).withSt ?_ ?_ ?_ e4
      · dsimp only; rw [val_append (k2 s hs).1, e1]
      · dsimp only; rw [val_append (k2 s hs).2.1, e2]
      · exact val_new _ _
  | getStream =>
    obtain ⟨s, hs, h⟩ := Res.bind_eq_ok.1 h
    rw [attr_ok] at hs
    obtain ⟨b, hb, e1, e2, e3, e4⟩ := habs.st_some hs
    cases hsa : s.sa with
    | none => rw [hsa] at h; cases h
    | some r =>
      rw [hsa] at h
      obtain ⟨x, hx, he⟩ := Res.map_eq_ok.1 h
      rw [load_ok] at hx
      rw [hsa] at e3
      simp only [val, Option.bind_some, hx] at e3
      simp only [Prod.mk.injEq] at he
      obtain ⟨rfl, rfl⟩ := he
      refine ⟨aw, ?_, habs.append hwf _⟩
      simp only [astep, hb, attr, Res.bind_ok, ← e3, val_new]
  | connect0 =>
    obtain ⟨s, hs, h⟩ := Res.bind_eq_ok.1 h
    rw [attr_ok] at hs
    obtain ⟨b, hb, e1, e2, e3, e4⟩ := habs.st_some hs
    dsimp only at h
    cases hsa : s.sa with
    | none => rw [hsa] at h; cases h
    | some r =>
      rw [hsa] at h
      obtain ⟨src, hsrc, h⟩ := Res.bind_eq_ok.1 h
      obtain ⟨dirs, hdirs, h⟩ := Res.bind_eq_ok.1 h
      obtain ⟨x, hx, he⟩ := Res.map_eq_ok.1 h
      rw [load_ok] at hsrc
      have hd := loadOpt_ok hdirs
      rw [hsa] at e3
      simp only [val, Option.bind_some, hsrc] at e3
      simp only [Prod.mk.injEq] at he
      obtain ⟨rfl, rfl⟩ := he
      have hst : store (w.heap ++ [src]) w.heap.length x.1 = w.heap ++ [x.1] := by simp [store]
      refine ⟨⟨aw.fd, some ⟨b.fdir, b.facc, some x.1, some x.2⟩⟩, ?_, ?_⟩
      · simp only [astep, hb, attr, Res.bind_ok, ← e3, ← e1, hd, hx, Res.map_ok]; rfl
      · rw [hst]
        refine (habs.append hwf [x.1]).withSt ?_ ?_ ?_ rfl
        · dsimp only; rw [val_append (k2 s hs).1, e1]
        · dsimp only; rw [val_append (k2 s hs).2.1, e2]
        · exact val_new _ _
  | @connect r a ha =>
    obtain ⟨s, hs, h⟩ := Res.bind_eq_ok.1 h
    rw [attr_ok] at hs
    obtain ⟨b, hb, e1, e2, e3, e4⟩ := habs.st_some hs
    dsimp only at h
    obtain ⟨src, hsrc, h⟩ := Res.bind_eq_ok.1 h
    obtain ⟨dirs, hdirs, h⟩ := Res.bind_eq_ok.1 h
    obtain ⟨x, hx, he⟩ := Res.map_eq_ok.1 h
    rw [load_ok, ha] at hsrc
    obtain rfl := Option.some.inj hsrc
    have hd := loadOpt_ok hdirs
    simp only [Prod.mk.injEq] at he
    obtain ⟨rfl, rfl⟩ := he
    have hst : store (w.heap ++ [a]) w.heap.length x.1 = w.heap ++ [x.1] := by simp [store]
    refine ⟨⟨aw.fd, some ⟨b.fdir, b.facc, some x.1, some x.2⟩⟩, ?_, ?_⟩
    · simp only [astep, hb, attr, Res.bind_ok, ← e1, hd, hx, Res.map_ok]; rfl
    · rw [hst]
      refine (habs.append hwf [x.1]).withSt ?_ ?_ ?_ rfl
      · dsimp only; rw [val_append (k2 s hs).1, e1]
      · dsimp only; rw [val_append (k2 s hs).2.1, e2]
      · exact val_new _ _

/-- What an operation makes the objects hold: only what they held, a new array, or the array given to
`set_stream_array`. -/
theorem held_step {op : Op N V T} (hwf : WF w) (h : step A w op = .ok (w', out)) (r : ℕ) (hr : Held w' r) :
    Held w r ∨ (w.heap.length = r ∧ r < w'.heap.length ∧ (∀ a, op ≠ .alloc a) ∧ op ≠ .getStream) ∨
      (op = .setStream r ∧ r < w.heap.length) := by
  cases op with
  | alloc a =>
    simp only [step, Res.ok.injEq, Prod.mk.injEq] at h
    obtain ⟨rfl, _⟩ := h; exact .inl hr
  | write k i v =>
    obtain ⟨a, _, he⟩ := Res.map_eq_ok.1 h
    simp only [Prod.mk.injEq] at he; obtain ⟨rfl, _⟩ := he; exact .inl hr
  | newFd k =>
    obtain ⟨a, _, he⟩ := Res.map_eq_ok.1 h
    simp only [Prod.mk.injEq] at he; obtain ⟨rfl, _⟩ := he
    rcases hr with ⟨f, hf, hr⟩ | hr
    · simp only [Option.some.injEq] at hf
      subst hf
      rcases hr with hr | hr | hr
      · subst hr; exact .inr (.inl ⟨rfl, by simp, by simp, by simp⟩)
      · cases hr
      · cases hr
    · exact .inl (.inr hr)
  | getDem =>
    obtain ⟨a, _, he⟩ := Res.map_eq_ok.1 h
    simp only [Prod.mk.injEq] at he; obtain ⟨rfl, _⟩ := he; exact .inl hr
  | flowDirections =>
    obtain ⟨f, hf, h⟩ := Res.bind_eq_ok.1 h
    obtain ⟨dem, _, h⟩ := Res.bind_eq_ok.1 h
    obtain ⟨a, _, he⟩ := Res.map_eq_ok.1 h
    rw [attr_ok] at hf
    simp only [Prod.mk.injEq] at he; obtain ⟨rfl, _⟩ := he
    rcases hr with ⟨f', hf', hr⟩ | hr
    · simp only [Option.some.injEq] at hf'
      subst hf'
      rcases hr with hr | hr | hr
      · exact .inl (.inl ⟨f, hf, .inl hr⟩)
      · simp only [Option.some.injEq] at hr
        subst hr; exact .inr (.inl ⟨rfl, by simp, by simp, by simp⟩)
      · exact .inl (.inl ⟨f, hf, .inr (.inr hr)⟩)
    · exact .inl (.inr hr)
  | getDirs =>
    obtain ⟨f, _, h⟩ := Res.bind_eq_ok.1 h
    obtain ⟨a, _, he⟩ := Res.map_eq_ok.1 h
    simp only [Prod.mk.injEq] at he; obtain ⟨rfl, _⟩ := he; exact .inl hr
  | accumulate =>
    obtain ⟨f, hf, h⟩ := Res.bind_eq_ok.1 h
    obtain ⟨k, _, h⟩ := Res.bind_eq_ok.1 h
    obtain ⟨dem, _, h⟩ := Res.bind_eq_ok.1 h
    obtain ⟨a, _, he⟩ := Res.map_eq_ok.1 h
    rw [attr_ok] at hf
    simp only [Prod.mk.injEq] at he; obtain ⟨rfl, _⟩ := he
    rcases hr with ⟨f', hf', hr⟩ | hr
    · simp only [Option.some.injEq] at hf'
      subst hf'
      rcases hr with hr | hr | hr
      · exact .inl (.inl ⟨f, hf, .inl hr⟩)
      · exact .inl (.inl ⟨f, hf, .inr (.inl hr)⟩)
      · simp only [Option.some.injEq] at hr
        subst hr; exact .inr (.inl ⟨rfl, by simp, by simp, by simp⟩)
    · exact .inl (.inr hr)
  | getAcc =>
    obtain ⟨f, _, h⟩ := Res.bind_eq_ok.1 h
    obtain ⟨a, _, he⟩ := Res.map_eq_ok.1 h
    simp only [Prod.mk.injEq] at he; obtain ⟨rfl, _⟩ := he; exact .inl hr
  | newStreams =>
    obtain ⟨f, hf, he⟩ := Res.map_eq_ok.1 h
    rw [attr_ok] at hf
    simp only [Prod.mk.injEq] at he; obtain ⟨rfl, _⟩ := he
    rcases hr with hr | ⟨s, hs, hr⟩
    · exact .inl (.inl hr)
    · simp only [Option.some.injEq] at hs
      subst hs
      rcases hr with hr | hr | hr
      · exact .inl (.inl ⟨f, hf, .inr (.inl hr)⟩)
      · exact .inl (.inl ⟨f, hf, .inr (.inr hr)⟩)
      · cases hr
  | setStream k =>
    obtain ⟨s, hs, h⟩ := Res.bind_eq_ok.1 h
    obtain ⟨a, ha, he⟩ := Res.map_eq_ok.1 h
    rw [attr_ok] at hs
    rw [load_ok] at ha
    simp only [Prod.mk.injEq] at he; obtain ⟨rfl, _⟩ := he
    rcases hr with hr | ⟨s', hs', hr⟩
    · exact .inl (.inl hr)
    · simp only [Option.some.injEq] at hs'
      subst hs'
      rcases hr with hr | hr | hr
      · exact .inl (.inr ⟨s, hs, .inl hr⟩)
      · exact .inl (.inr ⟨s, hs, .inr (.inl hr)⟩)
      · simp only [Option.some.injEq] at hr
        subst hr
        exact .inr (.inr ⟨rfl, (List.getElem?_eq_some_iff.1 ha).1⟩)
  | delineate t =>
    obtain ⟨s, hs, h⟩ := Res.bind_eq_ok.1 h
    obtain ⟨_, _, h⟩ := Res.bind_eq_ok.1 h
    obtain ⟨a, _, he⟩ := Res.map_eq_ok.1 h
    rw [attr_ok] at hs
    simp only [Prod.mk.injEq] at he; obtain ⟨rfl, _⟩ := he
    rcases hr with hr | ⟨s', hs', hr⟩
    · exact .inl (.inl hr)
    · simp only [Option.some.injEq] at hs'
      subst hs'
      rcases hr with hr | hr | hr
      · exact .inl (.inr ⟨s, hs, .inl hr⟩)
      · exact .inl (.inr ⟨s, hs, .inr (.inl hr)⟩)
      · simp only [Option.some.injEq] at hr
        subst hr; exact .inr (.inl ⟨rfl, by simp, by simp, by simp⟩)
  | getStream =>
    obtain ⟨s, _, h⟩ := Res.bind_eq_ok.1 h
    split at h
    · cases h
    · obtain ⟨a, _, he⟩ := Res.map_eq_ok.1 h
      simp only [Prod.mk.injEq] at he; obtain ⟨rfl, _⟩ := he; exact .inl hr
  | connect arg =>
    obtain ⟨s, hs, h⟩ := Res.bind_eq_ok.1 h
    rw [attr_ok] at hs
    dsimp only at h
    split at h
    · cases h
    · obtain ⟨src, _, h⟩ := Res.bind_eq_ok.1 h
      obtain ⟨dirs, _, h⟩ := Res.bind_eq_ok.1 h
      obtain ⟨res, _, he⟩ := Res.map_eq_ok.1 h
      simp only [Prod.mk.injEq] at he
      obtain ⟨rfl, _⟩ := he
      rcases hr with hr | ⟨s', hs', hr⟩
      · exact .inl (.inl hr)
      · simp only [Option.some.injEq] at hs'
        subst hs'
        rcases hr with hr | hr | hr
        · exact .inl (.inr ⟨s, hs, .inl hr⟩)
        · exact .inl (.inr ⟨s, hs, .inr (.inl hr)⟩)
        · simp only [Option.some.injEq] at hr
          subst hr; exact .inr (.inl ⟨rfl, by simp [store], by simp, by simp⟩)

theorem length_step {op : Op N V T} (h : step A w op = .ok (w', out)) : w.heap.length ≤ w'.heap.length := by
  by_cases hop : ∃ r i v, op = .write r i v
  · obtain ⟨r, i, v, rfl⟩ := hop
    obtain ⟨a, _, he⟩ := Res.map_eq_ok.1 h
    simp only [Prod.mk.injEq] at he; obtain ⟨rfl, _⟩ := he
    simp [store]
  · obtain ⟨l, hl⟩ := step_frame h (fun r i v he => hop ⟨r, i, v, he⟩)
    rw [hl]; simp

theorem wf_step {op : Op N V T} (hwf : WF w) (h : step A w op = .ok (w', out)) : WF w' := by
  intro r hr
  have := length_step h
  rcases held_step hwf h r hr with h1 | ⟨_, h1, _⟩ | ⟨_, h1⟩
  · exact lt_of_lt_of_le (hwf r h1) this
  · exact h1
  · omega

theorem out_alloc {op : Op N V T} {r : ℕ} (h : step A w op = .ok (w', some r))
    (hop : (∃ a, op = .alloc a) ∨ op = .getStream) :
    r = w.heap.length ∧ r < w'.heap.length := by
  rcases hop with ⟨a, rfl⟩ | rfl
  · simp only [step, Res.ok.injEq, Prod.mk.injEq, Option.some.injEq] at h
    obtain ⟨rfl, rfl⟩ := h; simp
  · obtain ⟨s, _, h⟩ := Res.bind_eq_ok.1 h
    split at h
    · cases h
    · obtain ⟨a, _, he⟩ := Res.map_eq_ok.1 h
      simp only [Prod.mk.injEq, Option.some.injEq] at he
      obtain ⟨rfl, rfl⟩ := he; simp

/-- The arrays of the client are held by no object. -/
theorem own_step {op : Op N V T} {own : List ℕ} (hwf : WF w) (hown : ∀ r ∈ own, ¬ Held w r ∧ r < w.heap.length)
    (h : step A w op = .ok (w', out)) :
    ∀ r ∈ ownAfter own op out, ¬ Held w' r ∧ r < w'.heap.length := by
  intro r hr
  have hlen := length_step h
  have hold : r ∈ own → op ≠ .setStream r → ¬ Held w' r ∧ r < w'.heap.length := by
    intro hr hne
    obtain ⟨h1, h2⟩ := hown r hr
    refine ⟨fun hh => ?_, by omega⟩
    rcases held_step hwf h r hh with h3 | ⟨h3, _⟩ | ⟨h3, _⟩
    · exact h1 h3
    · omega
    · exact hne h3
  have hnew : (∃ a, op = .alloc a) ∨ op = .getStream → out = some r →
      ¬ Held w' r ∧ r < w'.heap.length := by
    intro hop ho
    subst ho
    obtain ⟨e1, e2⟩ := out_alloc h hop
    refine ⟨fun hh => ?_, e2⟩
    rcases held_step hwf h r hh with h3 | ⟨_, _, h3, h4⟩ | ⟨h3, h4⟩
    · have := hwf r h3; omega
    · rcases hop with ⟨a, rfl⟩ | rfl
      · exact h3 a rfl
      · exact h4 rfl
    · omega
  cases op with
  | alloc a =>
    cases out with
    | none => exact hold hr (by simp)
    | some k =>
      rcases List.mem_cons.1 hr with rfl | hr
      · exact hnew (.inl ⟨a, rfl⟩) rfl
      · exact hold hr (by simp)
  | getStream =>
    cases out with
    | none => exact hold hr (by simp)
    | some k =>
      rcases List.mem_cons.1 hr with rfl | hr
      · exact hnew (.inr rfl) rfl
      · exact hold hr (by simp)
  | setStream k =>
    have hr' : r ∈ own.filter (· ≠ k) := by cases out <;> exact hr
    rw [List.mem_filter] at hr'
    refine hold hr'.1 ?_
    have := hr'.2
    simp only [ne_eq, decide_eq_true_eq] at this
    rintro he
    injection he with he
    exact this he.symm
  | write _ _ _ => exact hold hr (by simp)
  | newFd _ => exact hold hr (by simp)
  | getDem => exact hold hr (by simp)
  | flowDirections => exact hold hr (by simp)
  | getDirs => exact hold hr (by simp)
  | accumulate => exact hold hr (by simp)
  | getAcc => exact hold hr (by simp)
  | newStreams => exact hold hr (by simp)
  | delineate _ => exact hold hr (by simp)
  | connect _ => exact hold hr (by simp)

/-! ### C91 -/

theorem exec_sim {own : List ℕ} {tr : List (AOp N V T × Option (Fin N → V))} {aw : AWorld N V G}
    (h : Exec A w own tr w') (hwf : WF w) (hown : ∀ r ∈ own, ¬ Held w r ∧ r < w.heap.length)
    (habs : Abs w aw) : ∃ aw', ARun A aw tr aw' ∧ Abs w' aw' := by
  induction h generalizing aw with
  | done => exact ⟨aw, .done aw, habs⟩
  | client hs ha hw _ ih =>
    refine ih (wf_step hwf hs) (own_step hwf hown hs) ?_
    cases ha with
    | alloc a =>
      simp only [step, Res.ok.injEq, Prod.mk.injEq] at hs
      obtain ⟨rfl, _⟩ := hs
      exact habs.append hwf _
    | write r i v =>
      obtain ⟨a, _, he⟩ := Res.map_eq_ok.1 hs
      simp only [Prod.mk.injEq] at he
      obtain ⟨rfl, _⟩ := he
      exact habs.write (hown r (hw r i v rfl)).1 _
  | call hs ha _ ih =>
    obtain ⟨aw1, h1, h2⟩ := sim hwf habs ha hs
    obtain ⟨aw', h3, h4⟩ := ih (wf_step hwf hs) (own_step hwf hown hs) h2
    exact ⟨aw', .call h1 h3, h4⟩

/-- a world without objects and arrays -/
def empty : World N V G := ⟨[], none, none⟩

/-- **C91.**  A program that writes only into arrays it created itself, or got from `stream_array`, and did
not hand to `set_stream_array`, sees exactly what it would see if all arrays were passed by value: whatever
it writes into those arrays, whenever, every call returns the value that the calls by value return, and the
objects end up with those values. -/
theorem C91_by_value {tr : List (AOp N V T × Option (Fin N → V))} (h : Exec A empty [] tr w') :
    ∃ aw', ARun A ⟨none, none⟩ tr aw' ∧ Abs w' aw' :=
  exec_sim h (by rintro r (⟨f, hf, _⟩ | ⟨s, hs, _⟩) <;> [cases hf; cases hs]) (by simp) ⟨trivial, trivial⟩

/-- calls by value have one outcome -/
theorem ARun.det {aw a1 a2 : AWorld N V G} {tr1 tr2 : List (AOp N V T × Option (Fin N → V))}
    (h1 : ARun A aw tr1 a1) (h2 : ARun A aw tr2 a2) (hops : tr1.map Prod.fst = tr2.map Prod.fst) :
    tr1 = tr2 ∧ a1 = a2 := by
  induction h1 generalizing tr2 a2 with
  | done =>
    cases h2 with
    | done => exact ⟨rfl, rfl⟩
    | call _ _ => cases hops
  | call hs _ ih =>
    cases h2 with
    | done => cases hops
    | call hs' hr =>
      simp only [List.map_cons, List.cons.injEq] at hops
      obtain ⟨rfl, hops⟩ := hops
      rw [hs] at hs'
      simp only [Res.ok.injEq, Prod.mk.injEq] at hs'
      obtain ⟨rfl, rfl⟩ := hs'
      obtain ⟨rfl, rfl⟩ := ih hr hops
      exact ⟨rfl, rfl⟩

/-- **C91** (consequence).  Two such programs that make the same calls with the same values get the same
results, whatever they write into their own arrays in between. -/
theorem C91_writes_invisible {tr1 tr2 : List (AOp N V T × Option (Fin N → V))} {w1 w2 : World N V G}
    (h1 : Exec A empty [] tr1 w1) (h2 : Exec A empty [] tr2 w2)
    (hops : tr1.map Prod.fst = tr2.map Prod.fst) : tr1 = tr2 := by
  obtain ⟨a1, r1, _⟩ := C91_by_value h1
  obtain ⟨a2, r2, _⟩ := C91_by_value h2
  exact (r1.det r2 hops).1

/-! ### C92 -/

/-- the array given to `set_stream_array` or returned by a method, and the attribute it is -/
inductive Shared : Op N V T → (World N V G → Option ℕ) → Prop
  | dem : Shared .getDem (fun w => w.fd.map Fd.dem)
  | dirs : Shared .flowDirections (fun w => w.fd.bind Fd.fdir)
  | getDirs : Shared .getDirs (fun w => w.fd.bind Fd.fdir)
  | acc : Shared .accumulate (fun w => w.fd.bind Fd.facc)
  | getAcc : Shared .getAcc (fun w => w.fd.bind Fd.facc)
  | delineate (t) : Shared (.delineate t) (fun w => w.st.bind St.sa)

/-- **C92, refuted.**  The arrays returned by `dem`, `flow_directions`, `flow_direction_array`,
`flow_accumulation`, `flow_accumulation_array` and `delineate_streams` are the object's own: writing `v` at
`i` changes the attribute of the object there. -/
theorem C92_refuted {op : Op N V T} {field : World N V G → Option ℕ} (hop : Shared op field) {r : ℕ}
    (h : step A w op = .ok (w', some r)) (hr : r < w'.heap.length) (i : Fin N) (v : V) :
    ∃ w2, step A w' (.write r i v) = .ok (w2, none) ∧
      ∃ a, val w2.heap (field w2) = some a ∧ a i = v := by
  have hfield : ∀ h', field ⟨h', w'.fd, w'.st⟩ = some r := by
    intro h'
    cases hop with
    | dem =>
      obtain ⟨f, hf, he⟩ := Res.map_eq_ok.1 h
      rw [attr_ok] at hf
      simp only [Prod.mk.injEq, Option.some.injEq] at he; obtain ⟨rfl, rfl⟩ := he
      simp [hf]
    | dirs =>
      obtain ⟨f, hf, h⟩ := Res.bind_eq_ok.1 h
      obtain ⟨dem, _, h⟩ := Res.bind_eq_ok.1 h
      obtain ⟨a, _, he⟩ := Res.map_eq_ok.1 h
      simp only [Prod.mk.injEq, Option.some.injEq] at he; obtain ⟨rfl, rfl⟩ := he
      simp
    | getDirs =>
      obtain ⟨f, hf, h⟩ := Res.bind_eq_ok.1 h
      obtain ⟨a, ha, he⟩ := Res.map_eq_ok.1 h
      rw [attr_ok] at hf ha
      simp only [Prod.mk.injEq, Option.some.injEq] at he; obtain ⟨rfl, rfl⟩ := he
      simp [hf, ha]
    | acc =>
      obtain ⟨f, hf, h⟩ := Res.bind_eq_ok.1 h
      obtain ⟨_, _, h⟩ := Res.bind_eq_ok.1 h
      obtain ⟨dem, _, h⟩ := Res.bind_eq_ok.1 h
      obtain ⟨a, _, he⟩ := Res.map_eq_ok.1 h
      simp only [Prod.mk.injEq, Option.some.injEq] at he; obtain ⟨rfl, rfl⟩ := he
      simp
    | getAcc =>
      obtain ⟨f, hf, h⟩ := Res.bind_eq_ok.1 h
      obtain ⟨a, ha, he⟩ := Res.map_eq_ok.1 h
      rw [attr_ok] at hf ha
      simp only [Prod.mk.injEq, Option.some.injEq] at he; obtain ⟨rfl, rfl⟩ := he
      simp [hf, ha]
    | delineate t =>
      obtain ⟨s, hs, h⟩ := Res.bind_eq_ok.1 h
      obtain ⟨_, _, h⟩ := Res.bind_eq_ok.1 h
      obtain ⟨a, _, he⟩ := Res.map_eq_ok.1 h
      simp only [Prod.mk.injEq, Option.some.injEq] at he; obtain ⟨rfl, rfl⟩ := he
      simp
  refine ⟨⟨store w'.heap r (Function.update w'.heap[r] i v), w'.fd, w'.st⟩, ?_, ?_⟩
  · simp only [step, load, List.getElem?_eq_getElem hr, Res.map_ok]
  · rw [hfield]
    exact ⟨_, by simp only [val, Option.bind_some, store]; rw [List.getElem?_set_self hr],
      Function.update_self ..⟩

/-- **C92, refuted** (argument).  `set_stream_array` keeps the caller's array: writing into it afterwards
changes what `stream_array` returns. -/
theorem C92_set_refuted {r : ℕ} (h : step A w (.setStream r) = .ok (w', out)) (i : Fin N) (v : V) :
    ∃ w2 w3 k a, step A w' (.write r i v) = .ok (w2, none) ∧ step A w2 .getStream = .ok (w3, some k) ∧
      w3.heap[k]? = some a ∧ a i = v := by
  obtain ⟨s, hs, h⟩ := Res.bind_eq_ok.1 h
  obtain ⟨a, ha, he⟩ := Res.map_eq_ok.1 h
  rw [load_ok] at ha
  simp only [Prod.mk.injEq] at he; obtain ⟨rfl, _⟩ := he
  have hr : r < w.heap.length := (List.getElem?_eq_some_iff.1 ha).1
  refine ⟨⟨store w.heap r (Function.update a i v), w.fd, some ⟨s.fdir, s.facc, some r, s.graph⟩⟩,
    ⟨store w.heap r (Function.update a i v) ++ [Function.update a i v], w.fd,
      some ⟨s.fdir, s.facc, some r, s.graph⟩⟩, w.heap.length, Function.update a i v, ?_, ?_, ?_,
      Function.update_self ..⟩
  · simp only [step, load, ha, Res.map_ok]
  · simp only [step, attr, Res.bind_ok, load, store, List.getElem?_set_self hr, Res.map_ok,
      List.length_set]
  · simp [store]

/-- **C92** (what holds, partial): the array `stream_array` returns is new and held by no object, and
stays so as long as the program does not hand it to `set_stream_array`.  Missing: the other arrays, for
which the claim is false. -/
theorem C92_stream_array_partial {r : ℕ} (hwf : WF w) (h : step A w .getStream = .ok (w', some r)) :
    r = w.heap.length ∧ ¬ Held w' r ∧ ∀ w2 op out, step A w' op = .ok (w2, out) → op ≠ .setStream r →
      ¬ Held w2 r := by
  have h1 := own_step (own := []) hwf (by simp) h r (by simp [ownAfter])
  refine ⟨(out_alloc h (.inr rfl)).1, h1.1, fun w2 op out h2 hne hh => ?_⟩
  rcases held_step (wf_step hwf h) h2 r hh with h3 | ⟨h3, _⟩ | ⟨h3, _⟩
  · exact h1.1 h3
  · have := h1.2; omega
  · exact hne h3

/-! ### C93 -/

/-- **C93.**  No method changes an array that exists when it is called: not the arrays it is given, nor
those returned earlier. -/
theorem C93_inputs_unchanged {op : Op N V T} (h : step A w op = .ok (w', out))
    (hop : ∀ r i v, op ≠ .write r i v) (r : ℕ) (a : Fin N → V) (hr : w.heap[r]? = some a) :
    w'.heap[r]? = some a := by
  obtain ⟨l, hl⟩ := step_frame h hop
  rw [hl, List.getElem?_append_left (List.getElem?_eq_some_iff.1 hr).1, hr]

/-! ### C94 -/

/-- **C94.**  Calls on the flow-direction object never change a stream object made earlier: it keeps the
directions and the accumulation of the time it was made. -/
theorem C94_streams_keep {op : Op N V T} (hwf : WF w) (h : step A w op = .ok (w', out))
    (hop : op = .flowDirections ∨ op = .accumulate ∨ (∃ r, op = .newFd r)) {s : St G} (hs : w.st = some s) :
    w'.st = some s ∧ val w'.heap s.fdir = val w.heap s.fdir ∧ val w'.heap s.facc = val w.heap s.facc ∧
      val w'.heap s.sa = val w.heap s.sa := by
  obtain ⟨l, hl⟩ := step_frame h (by rintro r i v rfl; simp at hop)
  have hst : w'.st = w.st := by
    rcases hop with rfl | rfl | ⟨r, rfl⟩
    · obtain ⟨f, _, h⟩ := Res.bind_eq_ok.1 h
      obtain ⟨dem, _, h⟩ := Res.bind_eq_ok.1 h
      obtain ⟨a, _, he⟩ := Res.map_eq_ok.1 h
      simp only [Prod.mk.injEq] at he; obtain ⟨rfl, _⟩ := he; rfl
    · obtain ⟨f, _, h⟩ := Res.bind_eq_ok.1 h
      obtain ⟨_, _, h⟩ := Res.bind_eq_ok.1 h
      obtain ⟨dem, _, h⟩ := Res.bind_eq_ok.1 h
      obtain ⟨a, _, he⟩ := Res.map_eq_ok.1 h
      simp only [Prod.mk.injEq] at he; obtain ⟨rfl, _⟩ := he; rfl
    · obtain ⟨a, _, he⟩ := Res.map_eq_ok.1 h
      simp only [Prod.mk.injEq] at he; obtain ⟨rfl, _⟩ := he; rfl
  obtain ⟨e1, e2, e3⟩ := (held_append (l := []) hwf).2 s hs
  rw [hst, hl, val_append e1, val_append e2, val_append e3]
  exact ⟨hs, rfl, rfl, rfl⟩

/-- Calls on the flow-direction object, one after the other. -/
inductive FdCalls (A : Algo N V G T) : World N V G → World N V G → Prop
  | done (w : World N V G) : FdCalls A w w
  | call {w op out w1 w2} : step A w op = .ok (w1, out) →
      (op = .flowDirections ∨ op = .accumulate ∨ (∃ r, op = .newFd r)) → FdCalls A w1 w2 → FdCalls A w w2

/-- **C94** (order of calls).  A stream object made before `flow_accumulation` never gets an accumulation:
whatever is called on the flow-direction object afterwards, `delineate_streams` does what it does when there
is no accumulation. -/
theorem C94_made_too_early {f : Fd} (hwf : WF w) (hf : w.fd = some f) (hacc : f.facc = none)
    (h : step A w .newStreams = .ok (w', out)) {w2 : World N V G} (hc : FdCalls A w' w2) (t : T) :
    (∀ e, A.thresh t none = .err e → step A w2 (.delineate t) = .err e) ∧
      ∀ a, A.thresh t none = .ok a → ∃ w3 k, step A w2 (.delineate t) = .ok (w3, some k) ∧
        w3.heap[k]? = some a := by
  have hst : ∃ s, w'.st = some s ∧ s.facc = none := by
    obtain ⟨a, ha, he⟩ := Res.map_eq_ok.1 h
    rw [attr_ok, hf] at ha
    obtain rfl := Option.some.inj ha
    simp only [Prod.mk.injEq] at he; obtain ⟨rfl, _⟩ := he
    exact ⟨_, rfl, hacc⟩
  have hwf' := wf_step hwf h
  clear h hf hacc hwf
  induction hc with
  | done w =>
    obtain ⟨s, hs, hn⟩ := hst
    constructor
    · intro e he
      simp only [step, hs, attr, Res.bind_ok, hn, loadOpt, he]
      rfl
    · intro a ha
      exact ⟨⟨w.heap ++ [a], w.fd, some ⟨s.fdir, s.facc, some w.heap.length, s.graph⟩⟩, w.heap.length,
        by simp only [step, hs, attr, Res.bind_ok, hn, loadOpt, ha, Res.map_ok], by simp⟩
  | call h1 hop _ ih =>
    obtain ⟨s, hs, hn⟩ := hst
    exact ih ⟨s, (C94_streams_keep hwf' h1 hop hs).1, hn⟩ (wf_step hwf' h1)

/-! ### A concrete program -/

/-- two cells, toy calculations -/
def toy : Algo 2 ℤ ℕ ℤ where
  dirs d := .ok fun i => if d 0 < d 1 then 0 else (i : ℤ) - 1
  acc _ := .ok fun i => (i : ℤ) + 1
  thresh
    | _, none => .err .typeError
    | t, some a => .ok fun i => if t < a i then 1 else 0
  conn _ a := .ok (fun i => 10 * a i, 7)

/-- run a program -/
def runOps (A : Algo N V G T) : World N V G → List (Op N V T) → Res (World N V G)
  | w, [] => .ok w
  | w, op :: ops => (step A w op).bind fun r => runOps A r.1 ops

/-- The usual order of calls, with the client writing into its own DEM array and into the copy of the stream
array it got: it ends with the stored arrays untouched by that. -/
example : (runOps toy empty [.alloc ![3, 1], .newFd 0, .write 0 0 99, .flowDirections, .accumulate,
    .newStreams, .delineate 1, .getStream, .write 5 0 42, .connect none]).map
      (fun w => (w.heap, w.st.bind St.sa)) =
    .ok ([![99, 1], ![3, 1], ![-1, 0], ![1, 2], ![0, 1], ![42, 1], ![0, 10]], some 6) := by
  decide +kernel

/-- The same program is one `C91_by_value` speaks about. -/
example : ∃ (tr : List (AOp 2 ℤ ℤ × Option (Fin 2 → ℤ))) (w : World 2 ℤ ℕ), Exec toy empty [] tr w ∧
    tr.length = 3 ∧ w.heap = [![99, 1], ![3, 1], ![-1, 0]] :=
  ⟨_, _, .client (op := .alloc ![3, 1]) rfl (.alloc _) (by simp) <|
    .call (op := .newFd 0) rfl (.newFd (a := ![3, 1]) rfl) <|
    .client (op := .write 0 0 99) rfl (.write _ _ _) (by
      intro r i v h; injection h with h; subst h; simp [ownAfter, empty]) <|
    .call (op := .flowDirections) rfl .flowDirections <|
    .call (op := .newStreams) rfl .newStreams <| .done _ _, rfl, by decide +kernel⟩

/-- The writes `C92_refuted` speaks about: changing the returned array changes the result of the next
call, here from `[-1, 0]` to `[5, 0]`. -/
example : (runOps toy empty [.alloc ![3, 1], .newFd 0, .flowDirections, .write 2 0 5]).map
      (fun w => val w.heap (w.fd.bind Fd.fdir)) = .ok (some ![5, 0]) := by
  decide +kernel

/-- Made too early: `delineate_streams` raises although the accumulation has been calculated since. -/
example : (runOps toy empty [.alloc ![3, 1], .newFd 0, .flowDirections, .newStreams, .accumulate,
    .delineate 1]).map (fun w => w.heap) = .err .typeError := by
  decide +kernel

end Dany.Heap
