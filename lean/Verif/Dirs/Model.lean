import Verif.Dict
import Mathlib.Algebra.Order.Field.Basic
import Mathlib.Data.List.FinRange

/-!
# Model of `FlowDirections.flow_directions` (`dany/flow_directions.py`)

`K` is the type of elevations, lengths and slopes; `none` stands for NaN.  An entry of the padded
neighbour table is a cell or `none`, the fill index `_fillidx`, which is one past the last cell.
-/

namespace Dany.Dirs

open Function

variable {N : ℕ} {K : Type*}

/-- an entry of `_fneighbors`: a cell, or the fill index -/
abbrev Entry (N : ℕ) := Option (Fin N)

/-- the length of the longest neighbour list (flow_directions.py:129-133) -/
def width (rows : Fin N → List (Entry N)) : ℕ :=
  (List.finRange N).foldl (fun m n => max m (rows n).length) 0

/-- `_fill_irregular_neighbor_array` (flow_directions.py:123-142): pads the neighbour lists, which are
changed in place (`n += …`), so that `_neighbors` and `_fneighbors` have the same rows afterwards. -/
def pad (rows : Fin N → List (Entry N)) (n : Fin N) : List (Entry N) :=
  rows n ++ List.replicate (width rows - (rows n).length) none

/-- cell centres; `sqrt` stands for `np.sqrt`, and `rnd` for the rounding of the result of every
difference, square, sum and quotient: the identity for exact arithmetic, `Float.rnd64` for NumPy's. -/
structure Geo (N : ℕ) (K : Type*) where
  xc : Fin N → K
  yc : Fin N → K
  sqrt : K → K
  rnd : K → K

section Slopes

variable [Field K] [LinearOrder K]

/-- distance of two cell centres (flow_directions.py:164-166) -/
def Geo.dist (G : Geo N K) (a b : Fin N) : K :=
  G.sqrt (G.rnd (G.rnd (G.rnd (G.xc b - G.xc a) ^ 2) + G.rnd (G.rnd (G.yc b - G.yc a) ^ 2)))

/-- `np.where((drop < self._threshold) & (drop > 0), 0, drop)` (flow_directions.py:163) -/
def flatten (thr drop : K) : K := if drop < thr ∧ 0 < drop then 0 else drop

/-- one entry of `_calculate_slopes` (flow_directions.py:144-174); fill entries get 1e10, here `big`.
Cells with the same centre (division by zero in NumPy) are not modelled: the distance is positive in all
theorems that look at the value. -/
def slopeTo (G : Geo N K) (dem : Fin N → Option K) (thr big : K) (ix : Fin N) : Entry N → Option K
  | none => some big
  | some j => match dem ix, dem j with
    | some a, some b => some (G.rnd (flatten thr (G.rnd (b - a)) / G.dist ix j))
    | _, _ => none

/-- `np.nanmin` of a row: NaN if all entries are NaN -/
def nanmin (l : List (Option K)) : Option K :=
  match l.reduceOption with
  | [] => none
  | x :: xs => some (xs.foldl min x)

/-- one row of `fcells` (flow_directions.py:188-190), as entries of the neighbour table instead of
positions in it: those whose slope equals the minimum.  Nothing equals NaN. -/
def fcell (slope : Entry N → Option K) (row : List (Entry N)) : List (Entry N) :=
  match nanmin (row.map slope) with
  | none => []
  | some m => row.filter (fun e => slope e = some m)

/-- `fcells` (flow_directions.py:188-190); `np.nanmin` of an empty row raises `ValueError`. -/
def fcells (G : Geo N K) (dem : Fin N → Option K) (thr big : K) (rows : Fin N → List (Entry N)) :
    Res (Fin N → List (Entry N)) :=
  if 0 < N ∧ width rows = 0 then .err .valueError
  else .ok (fun ix => fcell (slopeTo G dem thr big ix) (pad rows ix))

end Slopes

/-- Using an entry as an index: the fill index raises `IndexError`. -/
def reals : List (Entry N) → Res (List (Fin N))
  | [] => .ok []
  | none :: _ => .err .indexError
  | some c :: l => (reals l).map (c :: ·)

/-! ### Ties: are all candidates connected? (flow_directions.py:214-231) -/

/-- `for tn in test_neighbors` (flow_directions.py:221-228): the candidates found are moved from `stack`
to the end of `are_neighbors`.  (`break` is taken when the stack is empty; scanning on finds nothing.) -/
def scanRow (row : List (Entry N)) (pending stack : List (Fin N)) (found : Bool) :
    List (Fin N) × List (Fin N) × Bool :=
  row.foldl (fun st tn => match tn with
    | none => st
    | some t => if t ∈ st.2.1 then (st.1 ++ [t], st.2.1.erase t, true) else st) (pending, stack, found)

/-- `for test_node in are_neighbors` (flow_directions.py:219-228), a list that grows during the
iteration: `pending` is the part still to come. -/
def scanAll (frow : Fin N → List (Entry N)) :
    ℕ → List (Fin N) → List (Fin N) → List (Fin N) → Bool → Res (List (Fin N) × List (Fin N) × Bool)
  | 0, _, _, _, _ => .hang
  | _ + 1, [], are, stack, found => .ok (are, stack, found)
  | k + 1, t :: pending, are, stack, found =>
    let r := scanRow (frow t) pending stack found
    scanAll frow k r.1 (are ++ [t]) r.2.1 r.2.2

/-- `while stack` (flow_directions.py:217-231) -/
def contLoop (frow : Fin N → List (Entry N)) (sfuel : ℕ) :
    ℕ → List (Fin N) → List (Fin N) → Res Bool
  | 0, _, _ => .hang
  | _ + 1, _, [] => .ok true
  | k + 1, are, s :: stack =>
    (scanAll frow sfuel are [] (s :: stack) false).bind fun r =>
      if r.2.2 = false then .ok (r.2.1 = []) else contLoop frow sfuel k r.1 r.2.1

/-- `continuous` for two or more candidates (flow_directions.py:214-231) -/
def continuous (frow : Fin N → List (Entry N)) (fuel : ℕ) : List (Fin N) → Res Bool
  | [] => .ok false
  | c :: cs => contLoop frow fuel fuel [c] cs

/-! ### The search over a flat (flow_directions.py:240-272, 326-345) -/

/-- `_stack`, `dest`, `sink`, `visited`, `tmp_stack`.  Every set in the dictionary `_stack` holds exactly
one cell: a cell is added to a new key, or `ix` a second time to one of the first keys. -/
structure BState (N : ℕ) where
  stack : Dict (Fin N) (Fin N)
  dest : Option (Fin N)
  sink : Bool
  visited : List (Fin N)
  tmp : List (Fin N)

/-- one iteration of `for conn in conns` in `_resolve_flats` (flow_directions.py:337-343) -/
def connStep (fdir : Fin N → ℤ) (cell : Fin N)
    (st : Dict (Fin N) (Fin N) × Option (Fin N) × Bool) (conn : Fin N) :
    Dict (Fin N) (Fin N) × Option (Fin N) × Bool :=
  if conn ∈ st.1.keys then st
  else (st.1.set conn cell, if fdir conn ≠ -1 ∧ fdir conn ≠ -2 then some conn else st.2.1, false)

/-- `_resolve_flats` (flow_directions.py:326-345): the new `_stack`, `dest` and `sink` -/
def resolve (fdir : Fin N → ℤ) (cell : Fin N) (conns : List (Fin N)) (stack : Dict (Fin N) (Fin N))
    (dest : Option (Fin N)) : Dict (Fin N) (Fin N) × Option (Fin N) × Bool :=
  conns.foldl (connStep fdir cell) (stack, if conns.length = 1 then conns.head? else dest, true)

/-- `for cell in tmp_stack` (flow_directions.py:252-266), a list that grows during the iteration:
`pending` is the part still to come, `n` the counter. -/
def searchPass (fdir : Fin N → ℤ) (fc : Fin N → List (Entry N)) :
    ℕ → List (Fin N) → ℕ → BState N → Res (BState N)
  | 0, _, _, _ => .hang
  | _ + 1, [], _, b => .ok b
  | k + 1, cell :: pending, n, b =>
    if cell ∉ b.visited then
      (reals (fc cell)).bind fun conns =>
        let r := resolve fdir cell conns b.stack b.dest
        let more := if r.2.1 = none then conns else []
        searchPass fdir fc k (pending ++ more) n
          ⟨r.1, r.2.1, r.2.2, b.visited ++ [cell], b.tmp ++ more⟩
    else if b.dest ≠ none then searchPass fdir fc k pending n b
    else searchPass fdir fc k pending (n + 1)
      (if n + 1 ≥ b.stack.length then { b with sink := true } else b)

/-- `while True` (flow_directions.py:250-272) -/
def searchLoop (fdir : Fin N → ℤ) (fc : Fin N → List (Entry N)) (pfuel : ℕ) :
    ℕ → BState N → Res (BState N)
  | 0, _ => .hang
  | k + 1, b => (searchPass fdir fc pfuel b.tmp 0 b).bind fun b =>
      if b.dest ≠ none then .ok { b with sink := false }
      else if b.sink = true then .ok b
      else searchLoop fdir fc pfuel k b

/-- `for conn in conns: self._stack[conn].add(ix)` (flow_directions.py:244-245) -/
def startStack (ix : Fin N) (conns : List (Fin N)) : Dict (Fin N) (Fin N) :=
  conns.foldl (fun d c => d.set c ix) []

/-! ### Tracing the way back (flow_directions.py:281-314) -/

/-- the update of `flow_trace` for `node_to` and the cell `node` in its set (flow_directions.py:290-306) -/
def traceStep (dest nodeTo node : Fin N) (trace : Dict (Fin N) (Fin N × ℕ)) :
    Dict (Fin N) (Fin N × ℕ) :=
  if nodeTo = dest then trace.set node (nodeTo, 0)
  else match trace.get? nodeTo with
    | some (_, dt) =>
      let dist0 := match trace.get? node with | some (_, d) => d | none => 1000000
      if dt + 1 < dist0 then trace.set node (nodeTo, dt + 1) else trace
    | none => trace.set node (nodeTo, 999)

/-- `while self._stack` (flow_directions.py:284-314); `ldest` always holds one cell.  A missing key is
created with an empty set and popped again; then the last key of the dictionary is taken. -/
def traceLoop (dest : Fin N) :
    ℕ → Fin N → Dict (Fin N) (Fin N) → Dict (Fin N) (Fin N × ℕ) → Res (Dict (Fin N) (Fin N × ℕ))
  | 0, _, _, _ => .hang
  | k + 1, nodeTo, stack, trace =>
    if stack = [] then .ok trace
    else match stack.get? nodeTo with
      | some node => traceLoop dest k node (stack.erase nodeTo) (traceStep dest nodeTo node trace)
      | none => match stack.keys.getLast? with
        | some l => traceLoop dest k l stack trace
        | none => .err .indexError

/-- `for node, (node_to, dist) in flow_trace.items(): self._fdir[node] = node_to`
(flow_directions.py:323-324) -/
def applyTrace (trace : Dict (Fin N) (Fin N × ℕ)) (fdir : Fin N → ℤ) : Fin N → ℤ :=
  trace.foldl (fun f e => update f e.1 ((e.2.1 : ℕ) : ℤ)) fdir

/-- `self._fdir[ix] = -2` and the same for all keys of `_stack` (flow_directions.py:276-278) -/
def markSinks (ix : Fin N) (stack : Dict (Fin N) (Fin N)) (fdir : Fin N → ℤ) : Fin N → ℤ :=
  stack.keys.foldl (fun f c => update f c (-2)) (update fdir ix (-2))

/-- the `else` branch of a cell without a simple answer (flow_directions.py:239-324) -/
def search (fuel : ℕ) (fdir : Fin N → ℤ) (fc : Fin N → List (Entry N)) (ix : Fin N)
    (conns : List (Fin N)) : Res (Fin N → ℤ) :=
  (searchLoop fdir fc fuel fuel ⟨startStack ix conns, none, true, [], conns⟩).bind fun b =>
    if b.sink = true then .ok (markSinks ix b.stack fdir)
    else match b.dest with
      | none => .ok fdir
      | some dest => match b.stack.get? dest with
        | none => .err .indexError
        | some first =>
          (traceLoop dest fuel dest b.stack [(first, (dest, 0))]).map fun trace => applyTrace trace fdir

/-! ### The loop over the cells (flow_directions.py:191-324) -/

/-- `_fdir` and `fcells` -/
structure State (N : ℕ) where
  fdir : Fin N → ℤ
  fc : Fin N → List (Entry N)

/-- the value stored for an entry of the neighbour table -/
def code : Entry N → ℤ
  | none => N
  | some c => ((c : ℕ) : ℤ)

/-- the choice among the remaining candidates (flow_directions.py:233-324) -/
def choose (fuel : ℕ) (s : State N) (ix : Fin N) (cont : Bool) : Res (State N) :=
  match s.fc ix, cont with
  | [a], _ => .ok { s with fdir := update s.fdir ix (code a) }
  | [a, _], true => .ok { s with fdir := update s.fdir ix (code a) }
  | [_, _, c], true => .ok { s with fdir := update s.fdir ix (code c) }
  | l, _ => (reals l).bind fun conns =>
      (search fuel s.fdir s.fc ix conns).map fun f => { s with fdir := f }

/-- one iteration of `for ix, node in enumerate(self._fdir)` (flow_directions.py:191-324) -/
def cellStep (frow : Fin N → List (Entry N)) (fuel : ℕ) (valid : Fin N → Bool) (r : Res (State N))
    (ix : Fin N) : Res (State N) :=
  r.bind fun s =>
    if s.fdir ix ≠ -1 then .ok s
    else if valid ix = false then .ok { s with fdir := update s.fdir ix ((ix : ℕ) : ℤ) }
    else if (s.fc ix).length > 1 then
      (reals (s.fc ix)).bind fun l =>
        -- candidates that already flow to `ix` are dropped, also from `fcells`
        let l' := l.filter (fun t => s.fdir t ≠ ((ix : ℕ) : ℤ))
        let s' : State N := { s with fc := update s.fc ix (l'.map some) }
        if l'.length > 1 then (continuous frow fuel l').bind fun c => choose fuel s' ix c
        else choose fuel s' ix false
    else choose fuel s ix false

/-! ### The method -/

section Method

variable [Field K] [LinearOrder K]

/-- `np.where(self._dem == np.nanmin(self._dem))[0]` (flow_directions.py:51): entries of the DEM with the
fill elevation 1e10 appended; `none` is the index of that last entry. -/
def minCells (dem : Fin N → Option K) (big : K) : List (Entry N) :=
  let entries : List (Entry N) := (List.finRange N).map some ++ [none]
  let value : Entry N → Option K := fun e => match e with | none => some big | some n => dem n
  fcell value entries

/-- `FlowDirections.__init__` with `check_elevations` (flow_directions.py:51-57) -/
def init (dem : Fin N → Option K) (big : K) (check : Bool) : Res (List (Entry N)) :=
  if check = true ∧ (minCells dem big).length > 1 then .err .assertionError
  else .ok (minCells dem big)

/-- `self._fdir[self._min_cell] = self._min_cell` (flow_directions.py:410) -/
def setMin : List (Entry N) → (Fin N → ℤ) → Res (Fin N → ℤ)
  | [], f => .ok f
  | none :: _, _ => .err .indexError
  | some c :: l, f => setMin l (update f c ((c : ℕ) : ℤ))

/-- `for tc in nodes: self._fdir[tc] = tc` (flow_directions.py:422-423); `(row, column)` pairs are turned
into numbers by FloPy before, which is not modelled. -/
def setTerminals : List ℤ → (Fin N → ℤ) → Res (Fin N → ℤ)
  | [], f => .ok f
  | t :: l, f => (pyIndex N t).bind fun c => setTerminals l (update f c t)

/-- `flow_directions` (flow_directions.py:387-428) on the neighbour table `rows`, padded or not. -/
def flowDirections (fuel : ℕ) (G : Geo N K) (dem : Fin N → Option K) (big : K)
    (rows : Fin N → List (Entry N)) (thr : K) (terminals : List ℤ) : Res (Fin N → ℤ) :=
  (setMin (minCells dem big) (fun _ => -1)).bind fun f0 =>
    (setTerminals terminals f0).bind fun f1 =>
      (fcells G dem thr big rows).bind fun fc =>
        ((List.finRange N).foldl (cellStep (pad rows) fuel (fun n => (dem n).isSome))
          (.ok ⟨f1, fc⟩)).map State.fdir

/-- The parts of a `FlowDirections` object `flow_directions` reads (flow_directions.py:29-64).  Of these it
changes the neighbour table only; the other methods change none of them. -/
structure Obj (N : ℕ) (K : Type*) where
  geo : Geo N K
  dem : Fin N → Option K
  big : K
  rows : Fin N → List (Entry N)

/-- arguments of a call (and the fuel of the model) -/
structure Args (K : Type*) where
  fuel : ℕ
  thr : K
  terminals : List ℤ

/-- A call of the method: its result, and the object afterwards.  The neighbour lists are padded in place
once the terminal cells are stored (flow_directions.py:425), also if an exception follows. -/
def Obj.call (o : Obj N K) (a : Args K) : Res (Fin N → ℤ) × Obj N K :=
  (flowDirections a.fuel o.geo o.dem o.big o.rows a.thr a.terminals,
    match (setMin (minCells o.dem o.big) (fun _ => -1)).bind (setTerminals a.terminals) with
    | .ok _ => { o with rows := pad o.rows }
    | _ => o)

/-- a history of calls -/
def Obj.calls (o : Obj N K) (h : List (Args K)) : Obj N K := h.foldl (fun o a => (o.call a).2) o

end Method

end Dany.Dirs
