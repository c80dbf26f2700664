import Verif.Cache.Model
import Verif.Flood.Props
import Verif.Flood.Witness

/-!
# C163: the neighbours a call works with

A fresh grid object has an empty cache.  "On a fresh grid" the answer of a call is
`(step … c none).1`.
-/

namespace Dany.Cache

open Flood (Eff)

variable {N : ℕ} {K : Type*} [Field K] [LinearOrder K]
variable {fuel : ℕ} {raise : K → K} {flood : K} {g : Grid N}

/-- the grid as `fill_sinks` sees it with FloPy's neighbours of the given kind -/
def view (g : Grid N) (m : Method) : Flood.Grid N := ⟨g.iverts, g.tab m⟩

/-- the grid's vertex lists are usable: `_identify_edge_nodes` returns -/
def Sound (g : Grid N) : Prop := ∃ l, Edge.edgeNodes g.iverts = .ok l

/-- the method `fill_sinks` runs is 'drain' -/
def Call.isDrain : Call N K → Bool
  | .fill _ mask method => Flood.effective mask method = .drain
  | _ => false

def Call.isStream : Call N K → Bool
  | .stream => true
  | _ => false

/-- **Which table the grid holds after a history**, in plain words: after no call, none; after a call of
`fill_sinks` with 'drain', the queen table for ever; otherwise that of the very first call: the rook
table when a stream object came first, else the queen table. -/
def held (g : Grid N) : List (Call N K) → Option (Table N)
  | [] => none
  | c :: cs =>
    if (c :: cs).any Call.isDrain then some (g.tab .queen)
    else some (g.tab (if c.isStream then .rook else .queen))

theorem drain_cond (mask : Option (Fin N → Bool)) (method : String) :
    (let method' :=
      if mask.isSome then
        if method.toLower = "priority" ∨ method.toLower = "complete" then method else "priority"
      else method
    (method'.toLower = "priority" ∨ method'.toLower = "complete")) ↔
      Flood.effective mask method ≠ .drain := by
  have hp : "priority".toLower = "priority" := by decide +kernel
  dsimp only
  unfold Flood.effective
  by_cases hc : method.toLower = "complete"
  · simp [hc]
  · by_cases hp' : method.toLower = "priority"
    · simp [hp']
    · cases mask <;> simp [hc, hp', hp]

/-- `fill_sinks` on a grid object is `fill_sinks` with the table it is handed. -/
theorem fillCall_eq (hs : Sound g) (dem : Fin N → K) (mask : Option (Fin N → Bool)) (method : String)
    (cache : Option (Table N)) :
    fillCall fuel raise flood g dem mask method cache =
      (Flood.fillSinks fuel raise flood
        ⟨g.iverts, (query g .queen (decide (Flood.effective mask method = .drain)) cache).1⟩ dem mask method,
       (query g .queen (decide (Flood.effective mask method = .drain)) cache).2) := by
  obtain ⟨l, hl⟩ := hs
  have hd := drain_cond mask method
  dsimp only at hd
  unfold fillCall Flood.fillSinks
  rw [hl]
  dsimp only [Res.bind]
  by_cases h : Flood.effective mask method = .drain
  · rw [if_neg (fun h' => (hd.1 h') h), decide_eq_true h]
  · rw [if_pos (hd.2 h), decide_eq_false h]

/-- the cache after one call -/
theorem step_cache (hs : Sound g) (c : Call N K) (cache : Option (Table N)) :
    (step fuel raise flood g c cache).2 =
      if c.isDrain then some (g.tab .queen)
      else some (cache.getD (g.tab (if c.isStream then .rook else .queen))) := by
  cases c with
  | fill dem mask method =>
    simp only [step, fillCall_eq hs, Call.isDrain, Call.isStream, query]
    by_cases h : Flood.effective mask method = .drain
    · simp [h]
    · cases cache <;> simp [h]
  | fillNan dem method => cases cache <;> simp [step, query, Call.isDrain, Call.isStream]
  | flowDirections => cases cache <;> simp [step, query, Call.isDrain, Call.isStream]
  | stream => cases cache <;> simp [step, query, Call.isDrain, Call.isStream]

theorem session_append (cs ds : List (Call N K)) (cache : Option (Table N)) :
    session fuel raise flood g (cs ++ ds) cache =
      ((session fuel raise flood g cs cache).1 ++
        (session fuel raise flood g ds (session fuel raise flood g cs cache).2).1,
       (session fuel raise flood g ds (session fuel raise flood g cs cache).2).2) := by
  induction cs generalizing cache with
  | nil => rfl
  | cons c cs ih => simp only [List.cons_append, session, ih]

/-- once the grid holds a table, only a 'drain' call changes it -/
theorem session_some (hs : Sound g) (cs : List (Call N K)) (t : Table N) :
    (session fuel raise flood g cs (some t)).2 =
      if cs.any Call.isDrain then some (g.tab .queen) else some t := by
  induction cs generalizing t with
  | nil => rfl
  | cons c cs ih =>
    simp only [session, step_cache hs, Option.getD_some, List.any_cons]
    by_cases h : c.isDrain = true
    · rw [if_pos h, ih]; simp [h]
    · rw [if_neg h, ih]; simp [h]

/-- **C163.**  The table a grid object holds after any history of calls that starts on a fresh grid. -/
theorem C163_held (hs : Sound g) (cs : List (Call N K)) :
    (session fuel raise flood g cs none).2 = held g cs := by
  cases cs with
  | nil => rfl
  | cons c cs =>
    simp only [session, step_cache hs, Option.getD_none, held, List.any_cons]
    by_cases h : c.isDrain = true
    · rw [if_pos h, session_some hs]; simp [h]
    · rw [if_neg h, session_some hs]; simp [h]

/-- a call that is made with the queen table in the cache answers as on a fresh grid, unless it makes a
stream object -/
theorem step_queen (hs : Sound g) (c : Call N K) (hc : c.isStream = false) :
    (step fuel raise flood g c (some (g.tab .queen))).1 = (step fuel raise flood g c none).1 := by
  cases c with
  | fill dem mask method => simp [step, fillCall_eq hs, query]
  | fillNan dem method => simp [step, query]
  | flowDirections => simp [step, query]
  | stream => simp [Call.isStream] at hc

/-- the table in the grid before a call is FloPy's queen table, or there is none -/
theorem held_queen {cs : List (Call N K)} (h : (∃ c ∈ cs, c.isDrain = true) ∨ ∀ c ∈ cs.head?, c.isStream = false) :
    held g cs = none ∨ held g cs = some (g.tab .queen) := by
  cases cs with
  | nil => exact .inl rfl
  | cons c cs =>
    right
    show (if (c :: cs).any Call.isDrain then some (g.tab .queen)
      else some (g.tab (if c.isStream then .rook else .queen))) = _
    by_cases hn : (c :: cs).any Call.isDrain = true
    · rw [if_pos hn]
    · rw [if_neg hn]
      rcases h with ⟨d, hd, hd'⟩ | h
      · exact absurd (List.any_eq_true.2 ⟨d, hd, hd'⟩) hn
      · rw [h c (by simp)]; rfl

/-- **C163** (true part).  When the first call on the grid object is not the making of a stream object,
or a 'drain' fill has been made before, every later call of `fill_sinks`, `fill_nan_values` and
`FlowDirections` gives exactly what it gives on a fresh grid, after whatever other calls. -/
theorem C163_partial (hs : Sound g) (cs : List (Call N K)) (c : Call N K) (hc : c.isStream = false)
    (h : (∃ d ∈ cs, d.isDrain = true) ∨ ∀ d ∈ cs.head?, d.isStream = false) :
    session fuel raise flood g (cs ++ [c]) none =
      ((session fuel raise flood g cs none).1 ++ [(step fuel raise flood g c none).1],
        held g (cs ++ [c])) := by
  have h2 := C163_held (fuel := fuel) (raise := raise) (flood := flood) hs (cs ++ [c])
  refine Prod.ext ?_ h2
  rw [session_append]
  simp only [session, C163_held hs]
  rcases held_queen (g := g) h with h | h
  · rw [h]
  · rw [h, step_queen hs c hc]

/-- **C163** (what a fresh grid gives).  The answers of the calls on a fresh grid are those of the
functions the other theorems are about, with queen neighbours. -/
theorem C163_fresh (hs : Sound g) :
    (∀ (dem : Fin N → K) mask method, (step fuel raise flood g (.fill dem mask method) none).1 =
      .filled (Flood.fillSinks fuel raise flood (view g .queen) dem mask method)) ∧
    (∀ (dem : Fin N → Option K) method, (step fuel raise flood g (.fillNan dem method) none).1 =
      .nanFilled (Nan.fillNan fuel method (g.tab .queen) dem)) ∧
    (step fuel raise flood g (.flowDirections : Call N K) none).1 = .flowTable (g.tab .queen) ∧
    (step fuel raise flood g (.stream : Call N K) none).1 = .streamTable (g.tab .rook) := by
  refine ⟨fun dem mask method => ?_, fun dem method => ?_, rfl, rfl⟩
  · simp [step, fillCall_eq hs, query, view]
  · simp [step, query]

/-- **C163 does not hold in general.**  After a stream object was made on a fresh grid, and as long as
no 'drain' fill has been made, every call works with side neighbours: `fill_sinks` with 'priority' or
'complete', `fill_nan_values`, and the table `FlowDirections` keeps. -/
theorem C163_refuted (hs : Sound g) (cs : List (Call N K)) (hcs : ∀ d ∈ cs, d.isDrain = false) :
    let answer := fun c : Call N K => (session fuel raise flood g (.stream :: cs ++ [c]) none).1.getLast?
    (∀ (dem : Fin N → K) mask method, Flood.effective mask method ≠ .drain →
      answer (.fill dem mask method) =
        some (.filled (Flood.fillSinks fuel raise flood (view g .rook) dem mask method))) ∧
    (∀ (dem : Fin N → Option K) method, answer (.fillNan dem method) =
      some (.nanFilled (Nan.fillNan fuel method (g.tab .rook) dem))) ∧
    answer .flowDirections = some (.flowTable (g.tab .rook)) ∧
    answer .stream = some (.streamTable (g.tab .rook)) := by
  intro answer
  have hany : ((Call.stream : Call N K) :: cs).any Call.isDrain = false := by
    rw [List.any_eq_false]
    intro d hd
    rcases List.mem_cons.1 hd with rfl | hd
    · simp [Call.isDrain]
    · simp [hcs d hd]
  have hheld : held g ((Call.stream : Call N K) :: cs) = some (g.tab .rook) := by
    simp only [held]; rw [hany]; rfl
  have key : ∀ c, answer c = some (step fuel raise flood g c (some (g.tab .rook))).1 := by
    intro c
    show (session fuel raise flood g ((.stream :: cs) ++ [c]) none).1.getLast? = _
    rw [session_append, C163_held hs, hheld]
    exact List.getLast?_concat
  refine ⟨fun dem mask method hd => ?_, fun dem method => ?_, ?_, ?_⟩ <;> rw [key]
  · simp [step, fillCall_eq hs, query, hd, view]
  · simp [step, query]
  · simp [step, query]
  · simp [step, query]

/-! ### what survives -/

/-- FloPy: cells sharing a side share a vertex -/
def SidesShareVertices (g : Grid N) : Prop := ∀ a b, Flood.Adj (g.tab .rook) a b → Flood.Adj (g.tab .queen) a b

theorem drains_mono {down : K → K → Prop} {t t' : Table N} (h : ∀ a b, Flood.Adj t a b → Flood.Adj t' a b)
    {f : Fin N → K} {S : Fin N → Prop} {n : Fin N} (hd : Flood.Drains down t f S n) :
    Flood.Drains down t' f S n := by
  induction hd with
  | outlet hs => exact .outlet hs
  | step ha hd _ ih => exact .step (h _ _ ha) hd ih

theorem pathTop_mono {t t' : Table N} (h : ∀ a b, Flood.Adj t a b → Flood.Adj t' a b)
    {dem : Fin N → K} {S : Fin N → Prop} {n : Fin N} {v : K} (hp : Flood.PathTop t dem S n v) :
    Flood.PathTop t' dem S n v := by
  induction hp with
  | seed hs => exact .seed hs
  | step _ ha ih => exact .step ih (h _ _ ha)

theorem reach_mono {t t' : Table N} (h : ∀ a b, Flood.Adj t a b → Flood.Adj t' a b)
    {S : Fin N → Prop} {n : Fin N} (hp : Flood.Reach t S n) : Flood.Reach t' S n := by
  induction hp with
  | seed hs => exact .seed hs
  | step _ ha ih => exact .step ih (h _ _ ha)

/-- **C163** (what survives).  Filled with side neighbours, the surface still drains strictly downhill
through queen neighbours, from every cell connected to an outlet by sides. -/
theorem C163_still_drains (hv : SidesShareVertices g) (hsym : Flood.SymmNbr (g.tab .rook))
    (hstrict : ∀ x, x < raise x) {dem out : Fin N → K} {mask : Option (Fin N → Bool)} {method : String}
    (heff : Flood.effective mask method = .priority)
    (h : Flood.fillSinks fuel raise flood (view g .rook) dem mask method = .ok out) (n : Fin N)
    (hn : Flood.Reach (g.tab .rook) (Flood.Outlet (view g .queen) mask) n) :
    Flood.Drains (· < ·) (g.tab .queen) out (Flood.Outlet (view g .queen) mask) n :=
  drains_mono hv (Flood.C03_drains_strictly (g := view g .rook) hstrict hsym heff h n hn)

/-- **C163** (what survives).  With 'complete', the lakes filled through side neighbours are never
lower than those filled through queen neighbours. -/
theorem C163_never_lower (hv : SidesShareVertices g) {dem out out' : Fin N → K} {method : String}
    (hmeth : method.toLower = "complete") {fuel' : ℕ}
    (h : Flood.fillSinks fuel raise flood (view g .queen) dem none method = .ok out)
    (h' : Flood.fillSinks fuel' raise flood (view g .rook) dem none method = .ok out') (n : Fin N)
    (hn : Flood.Reach (g.tab .rook) (Edge.OnEdge g.iverts) n) : out n ≤ out' n :=
  (Flood.C06_spill (g := view g .queen) hmeth h n (reach_mono hv hn)).2
    (pathTop_mono hv (Flood.C06_spill (g := view g .rook) hmeth h' n hn).1)

/-! ### Concrete sessions -/

/-- side neighbours on an `nrow × ncol` grid -/
def rook (nrow ncol : ℕ) (n : Fin (nrow * ncol)) : List ℕ :=
  (Flood.queen nrow ncol n).filter fun k => k / ncol = n.val / ncol ∨ k % ncol = n.val % ncol

def rectGrid (nrow ncol : ℕ) : Grid (nrow * ncol) :=
  ⟨Edge.structuredVerts nrow ncol, fun | .rook => rook nrow ncol | .queen => Flood.queen nrow ncol⟩

/-- a basin in the middle that opens through a corner -/
def basin : Fin (3 * 3) → ℚ := ![5, 5, 5, 5, 0, 5, 5, 5, 1]

theorem basin_sound : Sound (rectGrid 3 3) := ⟨[0, 1, 2, 3, 5, 6, 7, 8], by decide +kernel⟩

/-- The same call with the same DEM on the same grid: the lake in the middle is filled to 1 on a fresh
grid, to 5 after a stream object was made on it. -/
theorem C163_refuted_concrete :
    (match (session 100 (· + 1) 100 (rectGrid 3 3) [.fill basin none "complete"] none).1.getLast? with
      | some (.filled (.ok out)) => out 4 = 1 | _ => False) ∧
    (match (session 100 (· + 1) 100 (rectGrid 3 3) [.stream, .fill basin none "complete"] none).1.getLast? with
      | some (.filled (.ok out)) => out 4 = 5 | _ => False) := by
  have e : Flood.effective (none : Option (Fin (3 * 3) → Bool)) "complete" ≠ .drain := by
    unfold Flood.effective; rw [if_pos (by decide +kernel)]; decide
  have hq : (session 100 (· + 1) 100 (rectGrid 3 3) [.fill basin none "complete"] none).1.getLast? =
      some (.filled (Flood.fillSinks 100 (· + 1) 100 (view (rectGrid 3 3) .queen) basin none "complete")) := by
    simp [session, (C163_fresh basin_sound).1]
  have hr := (C163_refuted (fuel := 100) (raise := (· + 1)) (flood := 100) basin_sound [] (by simp)).1
    basin none "complete" e
  have c1 : (Flood.fillSinks 100 (· + 1) 100 (view (rectGrid 3 3) .queen) basin none "complete").map (· 4) =
      .ok 1 := by decide +kernel
  have c2 : (Flood.fillSinks 100 (· + 1) 100 (view (rectGrid 3 3) .rook) basin none "complete").map (· 4) =
      .ok 5 := by decide +kernel
  obtain ⟨o1, h1, h1'⟩ := Res.map_eq_ok.1 c1
  obtain ⟨o2, h2, h2'⟩ := Res.map_eq_ok.1 c2
  rw [hq, h1]
  refine ⟨h1', ?_⟩
  have : (session 100 (· + 1) 100 (rectGrid 3 3) [.stream, .fill basin none "complete"] none).1.getLast? =
      some (.filled (Flood.fillSinks 100 (· + 1) 100 (view (rectGrid 3 3) .rook) basin none "complete")) := hr
  rw [this, h2]
  exact h2'

/-- non-vacuity of `C163_partial`: FlowDirections first, then a stream object, then the fill -/
example : (session 100 (· + 1) 100 (rectGrid 3 3)
      ([.flowDirections, .stream] ++ [.fill basin none "complete"]) none).1.getLast? =
    some (.filled (Flood.fillSinks 100 (· + 1) 100 (view (rectGrid 3 3) .queen) basin none "complete")) := by
  rw [C163_partial basin_sound _ _ rfl (.inr (by simp [Call.isStream]))]
  simp [(C163_fresh basin_sound).1]

/-- non-vacuity of `C163_still_drains` and `C163_never_lower` -/
example : SidesShareVertices (rectGrid 3 3) ∧ Flood.SymmNbr ((rectGrid 3 3).tab .rook) ∧
    Flood.Reach ((rectGrid 3 3).tab .rook) (Edge.OnEdge (rectGrid 3 3).iverts) 4 := by
  refine ⟨?_, ?_, ?_⟩
  · unfold SidesShareVertices Flood.Adj; decide +kernel
  · unfold Flood.SymmNbr Flood.Adj; decide +kernel
  · have : Edge.OnEdge (rectGrid 3 3).iverts 3 :=
      ((Edge.C15_edge_nodes (l := [0, 1, 2, 3, 5, 6, 7, 8]) (by decide +kernel)).2 3).1 (by decide)
    exact .step (.seed this) (by unfold Flood.Adj; decide +kernel)

end Dany.Cache
