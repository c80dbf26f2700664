import Verif.Base
import Mathlib.Data.List.Basic

/-!
# Which arrays the objects share with their users

The other modules pass arrays by value.  Here the same public methods are modelled with references: a heap
of arrays, objects that hold references into it, and client code that may write into any array it can name.
The calculations themselves are arbitrary functions `Algo` of the contents they read; they are modelled
elsewhere.  All arrays have `N` entries (of any type `V`) and are contiguous, so that `ravel` and `reshape`
give views.
-/

namespace Dany.Heap

variable {N : ℕ} {V G T : Type*}

/-- The calculations: directions from elevations, accumulation from directions, delineation with a threshold
`T` from the accumulation, connectivity from directions and stream array (result: numbered array and graph).
The last two are given `none` for an attribute that is still `None`. -/
structure Algo (N : ℕ) (V G T : Type*) where
  dirs : (Fin N → V) → Res (Fin N → V)
  acc : (Fin N → V) → Res (Fin N → V)
  thresh : T → Option (Fin N → V) → Res (Fin N → V)
  conn : Option (Fin N → V) → (Fin N → V) → Res ((Fin N → V) × G)

/-- A `FlowDirections` object: `_dem`, `_fdir`, `_facc` (flow_directions.py:41, 59-61) -/
structure Fd where
  dem : ℕ
  fdir : Option ℕ
  facc : Option ℕ

/-- A stream object: `_fdir`, `_facc`, `_stream_array`, `_graph` (stream_util.py:22-28) -/
structure St (G : Type*) where
  fdir : Option ℕ
  facc : Option ℕ
  sa : Option ℕ
  graph : Option G

/-- The heap, the current flow-direction object and the current stream object -/
structure World (N : ℕ) (V G : Type*) where
  heap : List (Fin N → V)
  fd : Option Fd
  st : Option (St G)

/-- What client code can do.  `alloc` and `write` are its own array operations, `newFd` calls
`FlowDirections(grid, dem)`, `newStreams` calls `Sfr6(grid, fd)` (or one of its siblings). -/
inductive Op (N : ℕ) (V T : Type*) where
  | alloc (a : Fin N → V)
  | write (r : ℕ) (i : Fin N) (v : V)
  | newFd (r : ℕ)
  | getDem
  | flowDirections
  | getDirs
  | accumulate
  | getAcc
  | newStreams
  | setStream (r : ℕ)
  | delineate (t : T)
  | getStream
  | connect (arg : Option ℕ)

/-- contents of an array; there are no dangling references in a running program -/
def load (h : List (Fin N → V)) (r : ℕ) : Res (Fin N → V) :=
  match h[r]? with
  | some a => .ok a
  | none => .err .indexError

/-- an attribute that has to be there: `None` has no attributes (flow_directions.py:80, 88, 380) -/
def attr {α : Type*} : Option α → Res α
  | some a => .ok a
  | none => .err .attributeError

/-- contents of an attribute that may be `None` -/
def loadOpt (h : List (Fin N → V)) : Option ℕ → Res (Option (Fin N → V))
  | none => .ok none
  | some r => (load h r).map some

/-- Overwrite an array. -/
def store (h : List (Fin N → V)) (r : ℕ) (a : Fin N → V) : List (Fin N → V) := h.set r a

/-- One operation: the new world and the array it returns, if any. -/
def step (A : Algo N V G T) (w : World N V G) : Op N V T → Res (World N V G × Option ℕ)
  | .alloc a => .ok (⟨w.heap ++ [a], w.fd, w.st⟩, some w.heap.length)
  | .write r i v => (load w.heap r).map fun a =>
      (⟨store w.heap r (Function.update a i v), w.fd, w.st⟩, none)
  /- `self._dem = np.array(list(dem.ravel().copy()) + [1e+10])` (flow_directions.py:41) -/
  | .newFd r => (load w.heap r).map fun a =>
      (⟨w.heap ++ [a], some ⟨w.heap.length, none, none⟩, w.st⟩, none)
  /- `dem`: a view (flow_directions.py:90-96) -/
  | .getDem => (attr w.fd).map fun f => (w, some f.dem)
  /- `flow_directions`: a new array, of which a view is returned (flow_directions.py:409-428) -/
  | .flowDirections => (attr w.fd).bind fun f =>
      (load w.heap f.dem).bind fun dem => (A.dirs dem).map fun a =>
        (⟨w.heap ++ [a], some ⟨f.dem, some w.heap.length, f.facc⟩, w.st⟩, some w.heap.length)
  /- `flow_direction_array`: a view (flow_directions.py:74-80) -/
  | .getDirs => (attr w.fd).bind fun f => (attr f.fdir).map fun r => (w, some r)
  /- `flow_accumulation`: a new array, of which a view is returned (flow_directions.py:450-475) -/
  | .accumulate => (attr w.fd).bind fun f => (attr f.fdir).bind fun r =>
      (load w.heap r).bind fun dirs => (A.acc dirs).map fun a =>
        (⟨w.heap ++ [a], some ⟨f.dem, f.fdir, some w.heap.length⟩, w.st⟩, some w.heap.length)
  /- `flow_accumulation_array`: a view (flow_directions.py:82-88) -/
  | .getAcc => (attr w.fd).bind fun f => (attr f.facc).map fun r => (w, some r)
  /- the constructor keeps the arrays of the flow-direction object (stream_util.py:22-28, 475) -/
  | .newStreams => (attr w.fd).map fun f => (⟨w.heap, w.fd, some ⟨f.fdir, f.facc, none, none⟩⟩, none)
  /- `set_stream_array`: keeps the caller's array (stream_util.py:75) -/
  | .setStream r => (attr w.st).bind fun s => (load w.heap r).map fun _ =>
      (⟨w.heap, w.fd, some ⟨s.fdir, s.facc, some r, s.graph⟩⟩, none)
  /- `delineate_streams`: a new array, kept and returned (stream_util.py:102-107) -/
  | .delineate t => (attr w.st).bind fun s => (loadOpt w.heap s.facc).bind fun facc =>
      (A.thresh t facc).map fun a =>
        (⟨w.heap ++ [a], w.fd, some ⟨s.fdir, s.facc, some w.heap.length, s.graph⟩⟩, some w.heap.length)
  /- `stream_array`: a copy (stream_util.py:49-55) -/
  | .getStream => (attr w.st).bind fun s =>
      match s.sa with
      | none => .err .assertionError
      | some r => (load w.heap r).map fun a => (⟨w.heap ++ [a], w.fd, w.st⟩, some w.heap.length)
  /- `get_stream_connectivity`: a copy of the array given or stored is numbered in place and kept
  (stream_util.py:125-171, 194-312) -/
  | .connect arg => (attr w.st).bind fun s =>
      match (match arg with | some r => some r | none => s.sa) with
      | none => .err .assertionError
      | some r => (load w.heap r).bind fun src => (loadOpt w.heap s.fdir).bind fun dirs =>
          let copy := w.heap.length
          (A.conn dirs src).map fun res =>
            (⟨store (w.heap ++ [src]) copy res.1, w.fd, some ⟨s.fdir, s.facc, some copy, some res.2⟩⟩, none)

/-! ### The same methods with arrays passed by value -/

structure AFd (N : ℕ) (V : Type*) where
  dem : Fin N → V
  fdir : Option (Fin N → V)
  facc : Option (Fin N → V)

structure ASt (N : ℕ) (V G : Type*) where
  fdir : Option (Fin N → V)
  facc : Option (Fin N → V)
  sa : Option (Fin N → V)
  graph : Option G

structure AWorld (N : ℕ) (V G : Type*) where
  fd : Option (AFd N V)
  st : Option (ASt N V G)

inductive AOp (N : ℕ) (V T : Type*) where
  | newFd (a : Fin N → V)
  | getDem
  | flowDirections
  | getDirs
  | accumulate
  | getAcc
  | newStreams
  | setStream (a : Fin N → V)
  | delineate (t : T)
  | getStream
  | connect (arg : Option (Fin N → V))

/-- The methods as functions of values (same lines as `step`): this is how the other modules of this model
treat them. -/
def astep (A : Algo N V G T) (w : AWorld N V G) : AOp N V T → Res (AWorld N V G × Option (Fin N → V))
  | .newFd a => .ok (⟨some ⟨a, none, none⟩, w.st⟩, none)
  | .getDem => (attr w.fd).map fun f => (w, some f.dem)
  | .flowDirections => (attr w.fd).bind fun f => (A.dirs f.dem).map fun a =>
      (⟨some ⟨f.dem, some a, f.facc⟩, w.st⟩, some a)
  | .getDirs => (attr w.fd).bind fun f => (attr f.fdir).map fun a => (w, some a)
  | .accumulate => (attr w.fd).bind fun f => (attr f.fdir).bind fun dirs => (A.acc dirs).map fun a =>
      (⟨some ⟨f.dem, f.fdir, some a⟩, w.st⟩, some a)
  | .getAcc => (attr w.fd).bind fun f => (attr f.facc).map fun a => (w, some a)
  | .newStreams => (attr w.fd).map fun f => (⟨w.fd, some ⟨f.fdir, f.facc, none, none⟩⟩, none)
  | .setStream a => (attr w.st).map fun s => (⟨w.fd, some ⟨s.fdir, s.facc, some a, s.graph⟩⟩, none)
  | .delineate t => (attr w.st).bind fun s => (A.thresh t s.facc).map fun a =>
      (⟨w.fd, some ⟨s.fdir, s.facc, some a, s.graph⟩⟩, some a)
  | .getStream => (attr w.st).bind fun s =>
      match s.sa with
      | none => .err .assertionError
      | some a => .ok (w, some a)
  | .connect arg => (attr w.st).bind fun s =>
      match (match arg with | some a => some a | none => s.sa) with
      | none => .err .assertionError
      | some src => (A.conn s.fdir src).map fun res =>
          (⟨w.fd, some ⟨s.fdir, s.facc, some res.1, some res.2⟩⟩, none)

end Dany.Heap
