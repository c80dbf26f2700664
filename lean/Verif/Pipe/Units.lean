import Verif.Pipe.Props
import Verif.Dirs.Scale
import Verif.Geom.Similar
import Verif.Flood.Shift
import Verif.Acc.Linear
import Verif.Delin.Props

/-!
# C178: the whole chain in other units
-/

namespace Dany.Pipe

open Geom

variable {N : ℕ}

/-- **C178** (the chain).  Elevations and eps in other units (`a`) above another datum (`c`), coordinates in other units and
another coordinate system (`S`), the burn threshold and the contributing area converted as well: `fill_sinks`,
`flow_directions`, `flow_accumulation` and `delineate_streams` give the same results in the new units, in particular
the same flow directions and the same streams. -/
theorem C178_chain (S : Sim) {a : ℝ} (ha : 0 < a) (c : ℝ) {eps flood thr big t : ℝ} {fuel fuel1 fuel2 : ℕ} {g : Flood.Grid N}
    {dem f : Fin N → ℝ} {mask : Option (Fin N → Bool)} {method : String} (heff : Flood.effective mask method ≠ .drain)
    (hfill : Flood.fillSinks fuel (· + eps) flood g dem mask method = .ok f)
    {G G' : Dirs.Geo N ℝ} (hG : Dirs.Exact G) (hG' : Dirs.Exact G')
    (hcentre : ∀ n, (G'.xc n, G'.yc n) = S.app (G.xc n, G.yc n))
    {nbr : Fin N → List (Fin N)} {terminals : List ℤ}
    (hlt : ∀ n, f n < big ∧ a * f n + c < big) (hb : Dirs.Below G (Dirs.filled f) thr big nbr)
    (hb' : Dirs.Below G' (Dirs.filled fun n => a * f n + c) (a * thr) big nbr)
    {fdir : Fin N → ℤ}
    (hdir : Dirs.flowDirections fuel1 G (Dirs.filled f) big (Dirs.table nbr) thr terminals = .ok fdir)
    {polys : Fin N → List (ℝ × ℝ)} {facc : Fin N → ℝ}
    (hacc : Acc.flowAccumulation fuel2 fdir (shoelace polys) false = .ok facc)
    {o : Reach.Obj N} {boundary : Option (List ℤ)} {r : Reach.Obj N × (Fin N → ℤ)}
    (hsa : Delin.delineate (fun n => some (facc n)) o (.number t) boundary = .ok r) :
    Flood.fillSinks fuel (· + a * eps) flood g (fun n => a * dem n + c) mask method = .ok (fun n => a * f n + c) ∧
    Dirs.flowDirections fuel1 G' (Dirs.filled fun n => a * f n + c) big (Dirs.table nbr) (a * thr) terminals = .ok fdir ∧
    Acc.flowAccumulation fuel2 fdir (shoelace fun n => (polys n).map S.app) false = .ok (fun n => S.b ^ 2 * facc n) ∧
    Delin.delineate (fun n => some (S.b ^ 2 * facc n)) o (.number (S.b ^ 2 * t)) boundary = .ok r := by
  refine ⟨?_, ?_, ?_, ?_⟩
  · rw [Flood.C120_datum ha c eps flood heff, hfill]; rfl
  · rw [← hdir]
    apply Dirs.C134_units ha S.pos hG hG' (c := c) ?_ (fun n => rfl) (fun n v h => ?_) (fun n v h => ?_) hb hb'
    · intro n m
      have := S.norm (G.xc m, G.yc m) (G.xc n, G.yc n)
      rw [← hcentre, ← hcentre] at this
      exact this
    · cases h; exact (hlt n).1
    · cases h; exact (hlt n).2
  · have := Acc.C136_mul (S.b ^ 2) hacc
    rw [← this]
    congr 1
    funext n
    exact C178_area S polys n
  · rw [← hsa]
    unfold Delin.delineate
    simp only [Delin.thresholds, Res.bind_ok]
    congr 2
    funext n
    simp only [Delin.geq, decide_eq_true_eq]
    exact if_congr (mul_le_mul_iff_of_pos_left (pow_pos S.pos 2)) rfl rfl

/-! ### a concrete case: four cells, in metres and in another unit, turned by a quarter -/

/-- metres to units of a third of a metre, turned by 90° -/
def simSq : Sim where
  p := 0
  q := 3
  s := 1
  u := 0
  v := 0
  b := 3
  pos := by norm_num
  len := by norm_num
  side := by norm_num

def sqGrid : Flood.Grid 4 := ⟨![[0, 1, 4, 3], [1, 2, 5, 4], [3, 4, 7, 6], [4, 5, 8, 7]],
  ![[1, 2, 3], [0, 2, 3], [0, 1, 3], [0, 1, 2]]⟩
def sqPolys : Fin 4 → List (ℝ × ℝ) := ![[(-1, 2), (1, 2), (1, 1), (-1, 1)], [(1, 2), (2, 2), (2, 1), (1, 1)],
  [(-1, 1), (1, 1), (1, 0), (-1, 0)], [(1, 1), (2, 1), (2, 0), (1, 0)]]
def sqF : Fin 4 → ℝ := ![2, 1, 1, 0]

theorem sqF_filled : Dirs.filled sqF = Dirs.sqDem := by
  funext n
  fin_cases n <;> rfl
theorem sqF_filled' : (Dirs.filled fun n => 3 * sqF n + 100) = Dirs.sqDem' := by
  funext n
  rw [Dirs.sq_dem' n, ← sqF_filled]; rfl

theorem sq_fill : Flood.fillSinks 5 (· + (1 / 2 : ℝ)) (10 ^ 10) sqGrid sqF none "priority" = .ok sqF := by
  obtain ⟨out, h⟩ := Flood.C05_terminates (raise := (· + (1 / 2 : ℝ))) (flood := 10 ^ 10) (g := sqGrid) (dem := sqF)
    (mask := none) (method := "priority") (fun x => by linarith) (by decide) (by decide +kernel)
  have h5 := h 5 (by norm_num)
  have e : Edge.edgeNodes sqGrid.iverts = .ok [0, 1, 2, 3] := by decide +kernel
  rw [h5]
  congr 1
  funext n
  exact Flood.C02_edges_unchanged (fun x => by linarith) h5 n (((Edge.C15_edge_nodes e).2 n).1 (by fin_cases n <;> decide))

example : ∃ fuel fdir facc r, Dirs.flowDirections fuel Dirs.sqG (Dirs.filled sqF) (10 ^ 10) (Dirs.table Dirs.sqNbr) 1 [] = .ok fdir ∧
    Acc.flowAccumulation 5 fdir (shoelace sqPolys) false = .ok facc ∧
    Delin.delineate (fun n => some (facc n)) ⟨fdir, none, none⟩ (.number 3) none = .ok r ∧
    Dirs.flowDirections fuel Dirs.sqG' (Dirs.filled fun n => 3 * sqF n + 100) (10 ^ 10) (Dirs.table Dirs.sqNbr) (3 * 1) [] =
      .ok fdir ∧
    Acc.flowAccumulation 5 fdir (shoelace fun n => (sqPolys n).map simSq.app) false = .ok (fun n => 3 ^ 2 * facc n) ∧
    Delin.delineate (fun n => some (3 ^ 2 * facc n)) ⟨fdir, none, none⟩ (.number (3 ^ 2 * 3)) none = .ok r := by
  obtain ⟨B, fdir, hB⟩ := Dirs.C26_terminates (terminals := []) (dem := Dirs.filled sqF) (big := 10 ^ 10) (nbr := Dirs.sqNbr)
    Dirs.sqG 1 (by simp [Dirs.InRange]) (by rw [sqF_filled]; exact Dirs.sq_below)
    (fun n _ => by fin_cases n <;> simp [Dirs.sqNbr, Dirs.filled]) ⟨0, 2, rfl, by norm_num⟩
  have hn : Dirs.HasNbr (Dirs.filled sqF) Dirs.sqNbr := fun n _ => by fin_cases n <;> simp [Dirs.sqNbr, Dirs.filled]
  have h1 := hB B le_rfl
  have hleg : ∀ u, -(4 : ℤ) ≤ fdir u ∧ fdir u < 4 := by
    intro u
    rcases Dirs.C21_legal_partial (by simp [Dirs.InRange]) (by norm_num) (by rw [sqF_filled]; exact Dirs.sq_below) hn h1 u with
      h | h | ⟨m, _, h⟩ <;> omega
  obtain ⟨facc, h2⟩ := Acc.C31_terminates (fdir := fdir) hleg (shoelace sqPolys) false
  obtain ⟨sa, h3, _⟩ := Delin.C44_number (facc := fun n => some (facc n)) (o := ⟨fdir, none, none⟩) (3 : ℝ)
  have key := C178_chain simSq (a := 3) (by norm_num) 100 (thr := 1) (t := 3) (by decide +kernel) sq_fill (G := Dirs.sqG)
    (G' := Dirs.sqG') ⟨rfl, rfl⟩ ⟨rfl, rfl⟩ (fun n => by fin_cases n <;> norm_num [Dirs.sqG, Dirs.sqG', Sim.app, simSq])
    (fun n => by fin_cases n <;> norm_num [sqF]) (by rw [sqF_filled]; exact Dirs.sq_below)
    (by rw [sqF_filled']; exact Dirs.sq_below') h1 (h2 5 (by norm_num)) h3
  exact ⟨B, fdir, facc, _, h1, h2 5 (by norm_num), h3, key.2.1, key.2.2.1, key.2.2.2⟩

end Dany.Pipe
