import Verif.Store.Model
import Mathlib.Data.List.Induction

/-!
# C77, C104: saved objects
-/

namespace Dany.Store

variable {P B O : Type*} [DecidableEq P] {p : Pickle B O} {fs : Files P B}

theorem runAll_append (f : P) (bs : List (List B)) (fs : Files P B) (b : List B) (h : fs f = some b) :
    runAll fs (bs.map (.append f)) f = some (b ++ bs.flatten) := by
  induction bs generalizing fs b with
  | nil => simpa [runAll] using h
  | cons x bs ih =>
    rw [List.map_cons]
    show runAll (Effect.run fs (.append f x)) _ f = _
    rw [ih _ (b ++ x) (by simp [Effect.run, h])]
    simp

theorem runAll_other {f g : P} (hg : g ≠ f) (l : List (Effect P B))
    (hl : ∀ e ∈ l, e = .truncate f ∨ ∃ b, e = .append f b) (fs : Files P B) : runAll fs l g = fs g := by
  induction l generalizing fs with
  | nil => rfl
  | cons e l ih =>
    show runAll (Effect.run fs e) l g = _
    rw [ih (fun x hx => hl x (by simp [hx]))]
    rcases hl e (by simp) with rfl | ⟨b, rfl⟩ <;> simp [Effect.run, hg]

theorem write_only (f : P) (blocks : List (List B)) :
    ∀ e ∈ write f blocks, e = .truncate f ∨ ∃ b, e = .append f b := by
  intro e he
  rcases List.mem_cons.1 he with rfl | he
  · exact .inl rfl
  · obtain ⟨b, _, rfl⟩ := List.mem_map.1 he
    exact .inr ⟨b, rfl⟩

/-- A history of finished `write` calls: file, object, and the blocks its bytes went out in -/
structure Saved (P B O : Type*) where
  file : P
  obj : O
  blocks : List (List B)

/-- the file system after the calls, oldest first -/
def history (fs : Files P B) (h : List (Saved P B O)) : Files P B :=
  h.foldl (fun fs s => runAll fs (write s.file s.blocks)) fs

/-- **C77.** After any sequence of finished `write` calls, `read(f)` returns the object of the last call for the
file `f`; a file no call was made for is as before. -/
theorem C77_read_back (hp : p.Faithful) (h : List (Saved P B O)) (hb : ∀ s ∈ h, s.blocks.flatten = p.dumps s.obj)
    (f : P) :
    (∀ s, (h.reverse.find? (fun s => s.file = f)) = some s → read p (history fs h) f = .value s.obj) ∧
      ((∀ s ∈ h, s.file ≠ f) → read p (history fs h) f = read p fs f) := by
  induction h using List.reverseRecOn with
  | nil => exact ⟨by simp, fun _ => rfl⟩
  | append_singleton h s ih =>
    obtain ⟨ih1, ih2⟩ := ih (fun x hx => hb x (by simp [hx]))
    have hlast : history fs (h ++ [s]) = runAll (history fs h) (write s.file s.blocks) := by
      simp [history, List.foldl_append]
    rw [hlast]
    by_cases hf : s.file = f
    · refine ⟨fun s' hs' => ?_, fun hn => absurd hf (hn s (by simp))⟩
      simp [hf] at hs'
      subst hs'
      have e : runAll (history fs h) (write s.file s.blocks) f = some (p.dumps s.obj) := by
        show runAll (Effect.run (history fs h) (.truncate s.file)) _ f = _
        subst hf
        rw [runAll_append s.file s.blocks _ [] (by simp [Effect.run]), hb s (by simp)]
        simp
      unfold read
      rw [e]
      have := hp.back s.obj []
      rw [List.append_nil] at this
      simp [this]
    · have e : runAll (history fs h) (write s.file s.blocks) f = history fs h f :=
        runAll_other (fun h => hf h.symm) _ (write_only _ _) _
      unfold read at ih1 ih2 ⊢
      rw [e]
      refine ⟨fun s' hs' => ih1 s' ?_, fun hn => ih2 fun x hx => hn x (by simp [hx])⟩
      simpa [hf] using hs'

/-- **C104, refuted.**  `write` interrupted after opening the file destroys what was stored there: `read` fails,
whatever could be read before (unless the new object's bytes have no beginning that is not a pickle, that is,
are empty). -/
theorem C104_interrupted_refuted (hp : p.Faithful) {o : O} (ho : p.dumps o ≠ []) {blocks : List (List B)}
    (hb : blocks.flatten = p.dumps o) (f : P) :
    ∃ k < (write f blocks).length, ∀ fs : Files P B, read p (runAll fs ((write f blocks).take k)) f = .broken := by
  have hne : blocks ≠ [] := by
    rintro rfl
    exact ho (by simpa using hb.symm)
  refine ⟨1, ?_, fun fs => ?_⟩
  · have := List.length_pos_iff.2 hne
    simp [write]
    omega
  · have h1 := hp.short o [] (List.nil_prefix) (fun h => ho h.symm)
    simp [write, read, runAll, Effect.run, h1]

/-- **C104, the part that holds (partial).**  Wherever `write` is interrupted, other files are untouched, and `read(f)`
either is as before (nothing happened yet), or fails, or returns the new object: never a third one, and never the
new one before all its bytes are there. -/
theorem C104_never_wrong_partial (hp : p.Faithful) {o : O} {blocks : List (List B)}
    (hb : blocks.flatten = p.dumps o) (f : P) (k : ℕ) :
    (∀ g, g ≠ f → runAll fs ((write f blocks).take k) g = fs g) ∧
      (k = 0 ∧ runAll fs ((write f blocks).take k) f = fs f ∨
        0 < k ∧ (read p (runAll fs ((write f blocks).take k)) f = .broken ∨
          (blocks.take (k - 1)).flatten = p.dumps o ∧
            read p (runAll fs ((write f blocks).take k)) f = .value o)) := by
  refine ⟨fun g hg => runAll_other hg _ (fun e he => write_only f blocks e (List.mem_of_mem_take he)) _, ?_⟩
  cases k with
  | zero => exact .inl ⟨rfl, rfl⟩
  | succ k =>
    right
    refine ⟨by omega, ?_⟩
    have e : runAll fs ((write f blocks).take (k + 1)) f = some (blocks.take k).flatten := by
      rw [write, List.take_succ_cons]
      show runAll (Effect.run fs (.truncate f)) _ f = _
      rw [← List.map_take, runAll_append f _ _ [] (by simp [Effect.run]), List.nil_append]
    have hpre : (blocks.take k).flatten <+: p.dumps o := by
      rw [← hb]
      refine ⟨(blocks.drop k).flatten, ?_⟩
      rw [← List.flatten_append, List.take_append_drop]
    rw [Nat.add_sub_cancel]
    by_cases hfull : (blocks.take k).flatten = p.dumps o
    · right
      refine ⟨hfull, ?_⟩
      have := hp.back o []
      rw [List.append_nil] at this
      simp [read, e, hfull, this]
    · left
      simp [read, e, hp.short o _ hpre hfull]

/-! ### Concrete cases -/

/-- a code that satisfies the hypotheses: the number `n` is `n` ones and a zero -/
def unary : Pickle ℕ ℕ where
  dumps n := List.replicate n 1 ++ [0]
  loads b := if 0 ∈ b then some (b.takeWhile (· ≠ 0)).length else none

theorem unary_faithful : unary.Faithful where
  back n rest := by
    have h : (0 : ℕ) ∈ List.replicate n 1 ++ [0] ++ rest := by simp
    have : ((List.replicate n 1 ++ [0] ++ rest).takeWhile (· ≠ 0)) = List.replicate n 1 := by
      clear h
      induction n with
      | zero => simp
      | succ n ih => simp only [List.replicate_succ, List.cons_append, List.takeWhile_cons]; simp
    simp only [unary]
    rw [if_pos h, this]; simp
  short n b h hne := by
    have hlt : b <+: List.replicate n 1 := by
      rcases List.prefix_concat_iff.1 (by simpa [unary] using h) with h | h
      · exact absurd h (by simpa [unary] using hne)
      · exact h
    have : (0 : ℕ) ∉ b := fun hb => by
      have := hlt.subset hb
      simp at this
    simp [unary, this]

/-- two files, one written twice -/
example : read unary (history (fun _ => none)
    [⟨"a", 3, [[1, 1], [1, 0]]⟩, ⟨"b", 1, [[1, 0]]⟩, ⟨"a", 2, [[1], [1, 0]]⟩]) "a" = .value 2 := by decide +kernel

/-- the same with the last call cut off after its first block: neither 2 nor 3 -/
example : read unary (runAll (history (fun _ => none) [⟨"a", 3, [[1, 1], [1, 0]]⟩])
    ((write "a" [[1], [1, 0]]).take 2)) "a" = .broken := by decide +kernel

end Dany.Store
