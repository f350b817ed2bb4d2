import Verif.Model.Grids

namespace JaxCfd

theorem uniqueOr_eq_ok {α β : Type} [DecidableEq β] {err : Err} {f : α → β} {xs : List α} {b : β} :
    uniqueOr err f xs = .ok b ↔ xs ≠ [] ∧ ∀ x ∈ xs, f x = b := by
  unfold uniqueOr
  constructor
  · intro h
    split at h
    · rename_i c hc
      injection h with h
      subst h
      have hmem : ∀ y, y ∈ (xs.map f).dedup ↔ y = c := by intro y; rw [hc]; simp
      refine ⟨?_, fun x hx => ?_⟩
      · rintro rfl; simp at hc
      · exact (hmem _).1 (List.mem_dedup.2 (List.mem_map_of_mem hx))
    · cases h
  · rintro ⟨hne, h⟩
    have : (xs.map f).dedup = [b] := by
      have hmem : ∀ y, y ∈ (xs.map f).dedup ↔ y = b := by
        intro y
        rw [List.mem_dedup, List.mem_map]
        constructor
        · rintro ⟨x, hx, rfl⟩; exact h x hx
        · rintro rfl
          obtain ⟨x, hx⟩ := List.exists_mem_of_ne_nil xs hne
          exact ⟨x, hx, h x hx⟩
      have hnd := List.nodup_dedup (xs.map f)
      generalize (xs.map f).dedup = l at hmem hnd
      match l with
      | [] => exact absurd ((hmem b).2 rfl) (by simp)
      | [c] => rw [(hmem c).1 (by simp)]
      | c :: e :: l =>
        have h1 := (hmem c).1 (by simp)
        have h2 := (hmem e).1 (by simp)
        rw [h1, h2] at hnd
        simp at hnd
    rw [this]

theorem uniqueOr_eq_error {α β : Type} [DecidableEq β] {err e : Err} {f : α → β} {xs : List α}
    (h : uniqueOr err f xs = .error e) : e = err ∧ (xs = [] ∨ ∃ x ∈ xs, ∃ y ∈ xs, f x ≠ f y) := by
  have he : e = err := by
    unfold uniqueOr at h
    split at h
    · cases h
    · injection h with h; exact h.symm
  refine ⟨he, ?_⟩
  by_contra hc
  push Not at hc
  obtain ⟨hne, hc⟩ := hc
  obtain ⟨x, hx⟩ := List.exists_mem_of_ne_nil xs hne
  have : uniqueOr err f xs = .ok (f x) := uniqueOr_eq_ok.2 ⟨hne, fun y hy => hc y hy x hx⟩
  rw [this] at h; cases h

end JaxCfd
