import Verif.Base
import Mathlib.Data.List.Basic
import Mathlib.Data.List.Nodup

/-!
# Python dictionaries and sets

A `dict` is an insertion-ordered association list (Python ≥ 3.7 iterates in insertion order);
a `set` is a list without repetition whose order is never relied upon.
-/

namespace Dany

/-- Insertion-ordered dictionary. -/
abbrev Dict (κ α : Type*) := List (κ × α)

namespace Dict

variable {κ α : Type*} [DecidableEq κ]

/-- `d.get(k)`. -/
def get? : Dict κ α → κ → Option α
  | [], _ => none
  | (k', v) :: d, k => if k' = k then some v else get? d k

/-- `d[k] = v`: replaces in place, or appends a new key. -/
def set : Dict κ α → κ → α → Dict κ α
  | [], k, v => [(k, v)]
  | (k', v') :: d, k, v => if k' = k then (k, v) :: d else (k', v') :: set d k v

/-- `d.keys()`. -/
def keys (d : Dict κ α) : List κ := d.map Prod.fst

/-- `d.values()`. -/
def values (d : Dict κ α) : List α := d.map Prod.snd

/-- `d[k]` raising `KeyError`. -/
def getE (d : Dict κ α) (k : κ) : Res α :=
  match d.get? k with
  | some v => .ok v
  | none => .err .keyError

/-- `d.pop(k)` / `del d[k]` (the key is present). -/
def erase : Dict κ α → κ → Dict κ α
  | [], _ => []
  | (k', v) :: d, k => if k' = k then d else (k', v) :: erase d k

@[simp] theorem get?_nil (k : κ) : get? ([] : Dict κ α) k = none := rfl
@[simp] theorem keys_nil : keys ([] : Dict κ α) = [] := rfl

theorem get?_set_self (d : Dict κ α) (k : κ) (v : α) : (d.set k v).get? k = some v := by
  induction d with
  | nil => simp [set, get?]
  | cons x d ih =>
    obtain ⟨k', v'⟩ := x
    simp only [set]
    split
    · simp [get?]
    · rename_i h; simp [get?, h, ih]

theorem get?_set_ne (d : Dict κ α) {k k' : κ} (v : α) (h : k' ≠ k) :
    (d.set k v).get? k' = d.get? k' := by
  induction d with
  | nil => simp [set, get?, h.symm]
  | cons x d ih =>
    obtain ⟨a, b⟩ := x
    simp only [set]
    split
    · rename_i hk; subst hk; simp [get?, h.symm]
    · simp only [get?, ih]

theorem get?_set (d : Dict κ α) (k k' : κ) (v : α) :
    (d.set k v).get? k' = if k' = k then some v else d.get? k' := by
  split
  · rename_i h; subst h; exact get?_set_self _ _ _
  · rename_i h; exact get?_set_ne _ _ h

theorem get?_isSome {d : Dict κ α} {k : κ} : (d.get? k).isSome ↔ k ∈ d.keys := by
  induction d with
  | nil => simp [get?, keys]
  | cons x d ih =>
    obtain ⟨a, b⟩ := x
    simp only [get?, keys, List.map_cons, List.mem_cons]
    split
    · rename_i h; simp [h]
    · rename_i h
      rw [ih]
      simp [keys, Ne.symm h]

theorem get?_eq_none {d : Dict κ α} {k : κ} : d.get? k = none ↔ k ∉ d.keys := by
  rw [← get?_isSome, Option.not_isSome_iff_eq_none]

theorem mem_keys_iff {d : Dict κ α} {k : κ} : k ∈ d.keys ↔ ∃ v, d.get? k = some v := by
  rw [← get?_isSome, Option.isSome_iff_exists]

theorem mem_of_get? {d : Dict κ α} {k : κ} {v : α} (h : d.get? k = some v) : (k, v) ∈ d := by
  induction d with
  | nil => cases h
  | cons x d ih =>
    obtain ⟨a, b⟩ := x
    simp only [get?] at h
    split at h
    · rename_i hk; cases h; subst hk; simp
    · exact List.mem_cons_of_mem _ (ih h)

theorem get?_of_mem {d : Dict κ α} (hd : d.keys.Nodup) {k : κ} {v : α} (h : (k, v) ∈ d) :
    d.get? k = some v := by
  induction d with
  | nil => cases h
  | cons x d ih =>
    obtain ⟨a, b⟩ := x
    simp only [keys, List.map_cons, List.nodup_cons] at hd
    simp only [get?]
    rcases List.mem_cons.1 h with h | h
    · cases h; simp
    · have : a ≠ k := by
        rintro rfl
        exact hd.1 (List.mem_map.2 ⟨_, h, rfl⟩)
      rw [if_neg this]
      exact ih hd.2 h

theorem mem_iff_get? {d : Dict κ α} (hd : d.keys.Nodup) {k : κ} {v : α} :
    (k, v) ∈ d ↔ d.get? k = some v := ⟨get?_of_mem hd, mem_of_get?⟩

theorem keys_set (d : Dict κ α) (k : κ) (v : α) :
    (d.set k v).keys = if k ∈ d.keys then d.keys else d.keys ++ [k] := by
  induction d with
  | nil => simp [set, keys]
  | cons x d ih =>
    obtain ⟨a, b⟩ := x
    simp only [set]
    by_cases h : a = k
    · subst h; simp [keys]
    · rw [if_neg h]
      have e1 : ∀ d' : Dict κ α, keys ((a, b) :: d') = a :: keys d' := fun _ => rfl
      rw [e1, e1, ih]
      have : (k ∈ a :: keys d) ↔ k ∈ keys d := by
        simp [Ne.symm h]
      by_cases h1 : k ∈ keys d
      · rw [if_pos h1, if_pos (this.2 h1)]
      · rw [if_neg h1, if_neg (fun h2 => h1 (this.1 h2))]; simp

theorem mem_keys_set {d : Dict κ α} {k k' : κ} {v : α} :
    k' ∈ (d.set k v).keys ↔ k' ∈ d.keys ∨ k' = k := by
  rw [keys_set]
  split
  · rename_i h
    constructor
    · exact .inl
    · rintro (h' | rfl)
      · exact h'
      · exact h
  · simp

theorem nodup_keys_set {d : Dict κ α} (hd : d.keys.Nodup) (k : κ) (v : α) :
    (d.set k v).keys.Nodup := by
  rw [keys_set]
  split
  · exact hd
  · rename_i h
    rw [List.nodup_append]
    refine ⟨hd, by simp, ?_⟩
    intro a ha b hb
    simp only [List.mem_singleton] at hb
    subst hb
    rintro rfl
    exact h ha

theorem mem_values {d : Dict κ α} (hd : d.keys.Nodup) {v : α} :
    v ∈ d.values ↔ ∃ k, d.get? k = some v := by
  simp only [values, List.mem_map]
  constructor
  · rintro ⟨⟨k, v⟩, h, rfl⟩
    exact ⟨k, get?_of_mem hd h⟩
  · rintro ⟨k, h⟩
    exact ⟨(k, v), mem_of_get? h, rfl⟩

end Dict

/-- `s.add(x)` on a set. -/
def setAdd {α : Type*} [DecidableEq α] (s : List α) (x : α) : List α := if x ∈ s then s else s ++ [x]

theorem mem_setAdd {α : Type*} [DecidableEq α] {s : List α} {x y : α} :
    y ∈ setAdd s x ↔ y ∈ s ∨ y = x := by
  unfold setAdd
  split
  · rename_i h
    constructor
    · exact .inl
    · rintro (h' | rfl)
      · exact h'
      · exact h
  · simp

theorem nodup_setAdd {α : Type*} [DecidableEq α] {s : List α} (hs : s.Nodup) (x : α) :
    (setAdd s x).Nodup := by
  unfold setAdd
  split
  · exact hs
  · rename_i h
    rw [List.nodup_append]
    refine ⟨hs, by simp, ?_⟩
    intro a ha b hb
    simp only [List.mem_singleton] at hb
    subst hb
    rintro rfl
    exact h ha

/-- `defaultdict(set)`: `d[k].add(x)`. -/
def Dict.addTo {κ α : Type*} [DecidableEq κ] [DecidableEq α] (d : Dict κ (List α)) (k : κ) (x : α) :
    Dict κ (List α) :=
  d.set k (setAdd ((d.get? k).getD []) x)

/-- `defaultdict(list)`: `d[k].append(x)`. -/
def Dict.appendTo {κ α : Type*} [DecidableEq κ] (d : Dict κ (List α)) (k : κ) (x : α) :
    Dict κ (List α) :=
  d.set k ((d.get? k).getD [] ++ [x])

end Dany
