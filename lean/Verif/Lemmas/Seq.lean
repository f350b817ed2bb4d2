import Verif.Model.Seq
import Verif.Lemmas.Boundaries

namespace JaxCfd

theorem seqFin_eq_ok {α : Type} {d : ℕ} (f : Fin d → Except Err α) (g : Fin d → α) :
    seqFin f = .ok g ↔ ∀ a, f a = .ok (g a) := by
  induction d with
  | zero =>
    refine ⟨fun _ a => a.elim0, fun _ => ?_⟩
    unfold seqFin
    congr 1
    funext a; exact a.elim0
  | succ d ih =>
    unfold seqFin
    constructor
    · intro h a
      rw [Except.bind_eq_ok] at h
      obtain ⟨x, hx, h⟩ := h
      rw [Except.bind_eq_ok] at h
      obtain ⟨r, hr, h⟩ := h
      rw [Except.pure_eq_ok] at h
      injection h with h
      rw [ih] at hr
      subst h
      refine Fin.cases ?_ (fun i => ?_) a
      · rw [hx, Fin.cons_zero]
      · rw [Fin.cons_succ]; exact hr i
    · intro h
      rw [h 0, Except.bind_ok, (ih _ (fun i => g i.succ)).2 (fun i => h i.succ), Except.bind_ok,
        Except.pure_eq_ok]
      congr 1
      funext a
      refine Fin.cases rfl (fun i => rfl) a

theorem seqFin_ok {α : Type} {d : ℕ} (f : Fin d → Except Err α) (g : Fin d → α)
    (h : ∀ a, f a = .ok (g a)) : seqFin f = .ok g := (seqFin_eq_ok f g).2 h

/-- If entry `a` raises `e` and all earlier entries succeed, the comprehension raises `e`. -/
theorem seqFin_error {α : Type} {d : ℕ} (f : Fin d → Except Err α) (a : Fin d) (e : Err)
    (ha : f a = .error e) (h : ∀ b < a, ∃ x, f b = .ok x) : seqFin f = .error e := by
  induction d with
  | zero => exact a.elim0
  | succ d ih =>
    unfold seqFin
    revert ha h
    refine Fin.cases ?_ (fun i => ?_) a
    · intro ha _
      rw [ha, Except.bind_error]
    · intro ha h
      obtain ⟨x, hx⟩ := h 0 (Fin.succ_pos i)
      rw [hx, Except.bind_ok, ih (fun i => f i.succ) i ha (fun b hb => h b.succ (by
        simpa using hb)), Except.bind_error]

theorem seqFin_isError {α : Type} {d : ℕ} (f : Fin d → Except Err α) :
    (∃ g, seqFin f = .ok g) ∨
      ∃ a e, f a = .error e ∧ (∀ b < a, ∃ x, f b = .ok x) ∧ seqFin f = .error e := by
  induction d with
  | zero => exact Or.inl ⟨Fin.elim0, rfl⟩
  | succ d ih =>
    cases h0 : f 0 with
    | error e =>
      refine Or.inr ⟨0, e, h0, fun b hb => absurd hb (by simp), ?_⟩
      unfold seqFin; rw [h0, Except.bind_error]
    | ok x =>
      rcases ih (fun i => f i.succ) with ⟨g, hg⟩ | ⟨a, e, ha, hb, -⟩
      · refine Or.inl ⟨Fin.cons x g, ?_⟩
        unfold seqFin; rw [h0, Except.bind_ok, hg]; rfl
      · have hlt : ∀ b < a.succ, ∃ x, f b = .ok x := by
          intro b
          refine Fin.cases (fun _ => ⟨x, h0⟩) (fun i hi => hb i (by simpa using hi)) b
        exact Or.inr ⟨a.succ, e, ha, hlt, seqFin_error f a.succ e ha hlt⟩

end JaxCfd
