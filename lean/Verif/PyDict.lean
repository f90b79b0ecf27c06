import Mathlib.Data.List.Basic
import Mathlib.Data.List.Nodup

/-! Python dictionaries (insertion ordered, later assignments overwrite) as association lists.
Library behaviour; part of the trusted base. -/

namespace Hyp

/-- `d[k] = v`. -/
def dictSet {κ β : Type _} [DecidableEq κ] (d : List (κ × β)) (k : κ) (v : β) : List (κ × β) :=
  match d with
  | [] => [(k, v)]
  | (k', v') :: d => if k' = k then (k, v) :: d else (k', v') :: dictSet d k v

/-- `d[k]`, `none` = `KeyError`. -/
def dictGet {κ β : Type _} [DecidableEq κ] (d : List (κ × β)) (k : κ) : Option β :=
  match d with
  | [] => none
  | (k', v) :: d => if k' = k then some v else dictGet d k

/-- `OrderedDict((k, i) for i, k in enumerate(keys))`. -/
def enumDict {κ : Type _} [DecidableEq κ] (keys : List κ) : List (κ × Nat) :=
  keys.zipIdx.foldl (fun d p => dictSet d p.1 p.2) []

theorem dictGet_set {κ β : Type _} [DecidableEq κ] (d : List (κ × β)) (k k' : κ) (v : β) :
    dictGet (dictSet d k v) k' = if k = k' then some v else dictGet d k' := by
  induction d with
  | nil => simp [dictSet, dictGet]
  | cons p d ih =>
    obtain ⟨a, b⟩ := p
    unfold dictSet
    by_cases h : a = k
    · subst h; simp only [if_true, dictGet]; split <;> rfl
    · simp only [h, if_false, dictGet, ih]
      by_cases h2 : a = k'
      · subst h2; simp [Ne.symm h]
      · simp [h2]

theorem dictGet_foldl {κ β : Type _} [DecidableEq κ] (l : List (κ × β)) (d : List (κ × β)) (k : κ) :
    (∀ v, dictGet (l.foldl (fun d p => dictSet d p.1 p.2) d) k = some v →
      (k, v) ∈ l ∨ dictGet d k = some v) ∧
    ((∃ v, (k, v) ∈ l) ∨ (dictGet d k).isSome → (dictGet (l.foldl (fun d p => dictSet d p.1 p.2) d) k).isSome) := by
  induction l generalizing d with
  | nil => simp
  | cons p l ih =>
    obtain ⟨a, b⟩ := p
    obtain ⟨h1, h2⟩ := ih (dictSet d a b)
    constructor
    · intro v hv
      rcases h1 v hv with h | h
      · left; simp [h]
      · rw [dictGet_set] at h
        split at h
        · rename_i e; left; simp at h; simp [e, h]
        · right; exact h
    · intro h
      apply h2
      rw [dictGet_set]
      rcases h with ⟨v, hv⟩ | h
      · simp at hv
        rcases hv with ⟨rfl, rfl⟩ | hv
        · right; simp
        · left; exact ⟨v, hv⟩
      · right; split <;> simp [h]

theorem enumDict_some {κ : Type _} [DecidableEq κ] {keys : List κ} {k : κ} {i : Nat}
    (h : dictGet (enumDict keys) k = some i) : keys[i]? = some k := by
  rcases (dictGet_foldl keys.zipIdx [] k).1 i h with h | h
  · rw [List.mk_mem_zipIdx_iff_getElem?] at h; exact h
  · simp [dictGet] at h

theorem enumDict_isSome {κ : Type _} [DecidableEq κ] {keys : List κ} {k : κ} :
    (dictGet (enumDict keys) k).isSome ↔ k ∈ keys := by
  constructor
  · intro h
    obtain ⟨i, hi⟩ := Option.isSome_iff_exists.1 h
    exact List.mem_of_getElem? (enumDict_some hi)
  · intro h
    apply (dictGet_foldl keys.zipIdx [] k).2
    left
    obtain ⟨i, hi⟩ := List.getElem?_of_mem h
    exact ⟨i, List.mk_mem_zipIdx_iff_getElem?.2 hi⟩

theorem enumDict_get_nodup {κ : Type _} [DecidableEq κ] {keys : List κ} {k : κ} {i : Nat} (hnd : keys.Nodup)
    (h : keys[i]? = some k) : dictGet (enumDict keys) k = some i := by
  obtain ⟨j, hj⟩ := Option.isSome_iff_exists.1 (enumDict_isSome.2 (List.mem_of_getElem? h))
  have hj' := enumDict_some hj
  rw [hj]
  obtain ⟨hi1, hi2⟩ := List.getElem?_eq_some_iff.1 h
  obtain ⟨hj1, hj2⟩ := List.getElem?_eq_some_iff.1 hj'
  congr 1
  exact (hnd.getElem_inj_iff).1 (hj2.trans hi2.symm)

theorem enumDict_get_not_mem {κ : Type _} [DecidableEq κ] {keys : List κ} {k : κ} (h : k ∉ keys) :
    dictGet (enumDict keys) k = none := by
  cases hd : dictGet (enumDict keys) k with
  | none => rfl
  | some i => exact absurd (enumDict_isSome.1 (by rw [hd]; rfl)) h

end Hyp
