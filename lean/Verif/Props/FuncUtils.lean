import Verif.Model.TimeStepping
import Mathlib.Logic.Function.Iterate
import Mathlib.Control.Lawful

/-! # C40: `repeated`, `trajectory`, `scan` and `init_context` -/

namespace JaxCfd

set_option linter.unusedSectionVars false

/-! ### Composition laws for pure step functions -/

section Pure
variable {C Y : Type}

/-- **C40** `repeated(f, n)` is the `n`-fold composition of `f`. -/
theorem C40_repeated (f : C → C) (n : ℕ) (x : C) : repeated (m := Id) 0 f n x = f^[n] x := by
  unfold repeated scanNone
  rw [if_neg (by simp)]
  induction n generalizing x with
  | zero => rfl
  | succ n ih => exact ih (f x)

/-- **C40** Repetitions compose: `repeated(repeated(f, m), n) = repeated(f, m * n)`, `repeated(f, m)` after `repeated(f, n)` is
`repeated(f, m + n)`; `repeated(f, 0)` is the identity and `repeated(f, 1)` is `f`. -/
theorem C40_repeated_laws (f : C → C) (m n : ℕ) (x : C) :
    repeated (m := Id) 0 (repeated (m := Id) 0 f m) n x = repeated (m := Id) 0 f (m * n) x ∧
    repeated (m := Id) 0 f m (repeated (m := Id) 0 f n x) = repeated (m := Id) 0 f (m + n) x ∧
    repeated (m := Id) 0 f 0 x = x ∧ repeated (m := Id) 0 f 1 x = f x := by
  have e : repeated (m := Id) 0 f m = f^[m] := funext (C40_repeated f m)
  refine ⟨?_, ?_, ?_, ?_⟩
  · rw [C40_repeated, e, C40_repeated, Function.iterate_mul]
  · rw [C40_repeated, C40_repeated, C40_repeated, Function.iterate_add_apply]
  · rfl
  · rfl

/-- **C40** `trajectory(f, n, post)` returns the final state `fⁿ(x)` (not post-processed) and `n` frames: frame `i` is `post` of the
state after `i + 1` steps, or after `i` steps with `start_with_input`. -/
theorem C40_trajectory (step : C → C) (post : C → Y) (n : ℕ) (start : Bool) (x : C) :
    (trajectory (m := Id) 0 step n post start x).1 = step^[n] x ∧
    (trajectory (m := Id) 0 step n post start x).2 =
      (List.range n).map fun i => post (step^[if start then i else i + 1] x) := by
  unfold trajectory scanNone
  rw [if_neg (by simp)]
  induction n generalizing x with
  | zero => exact ⟨rfl, rfl⟩
  | succ n ih =>
    obtain ⟨h1, h2⟩ := ih (step x)
    refine ⟨h1, ?_⟩
    rw [List.range_succ_eq_map, List.map_cons, List.map_map]
    refine congrArg₂ List.cons ?_ (h2.trans ?_)
    · cases start <;> rfl
    · cases start <;> rfl

/-- **C40** Trajectories can be cut: `m + n` steps are `m` steps followed by `n` steps from where they ended, the frames being
concatenated.  Hence saving intermediate states and restarting from them changes nothing. -/
theorem C40_trajectory_restart (step : C → C) (post : C → Y) (m n : ℕ) (start : Bool) (x : C) :
    (trajectory (m := Id) 0 step (m + n) post start x) =
      (let r := trajectory (m := Id) 0 step m post start x
       let s := trajectory (m := Id) 0 step n post start r.1
       (s.1, r.2 ++ s.2)) := by
  have h := C40_trajectory step post (m + n) start x
  have h1 := C40_trajectory step post m start x
  have h2 := C40_trajectory step post n start (step^[m] x)
  apply Prod.ext
  · dsimp only
    rw [h.1, h1.1, h2.1, ← Function.iterate_add_apply, Nat.add_comm]
  · dsimp only
    rw [h.2, h1.1, h1.2, h2.2, List.range_add, List.map_append, List.map_map]
    congr 1
    apply List.map_congr_left
    intro i _
    simp only [Function.comp_apply]
    cases start with
    | false =>
      simp only [Bool.false_eq_true, if_false]
      rw [show m + i + 1 = (i + 1) + m by omega, Function.iterate_add_apply]
    | true =>
      simp only [if_true]
      rw [Nat.add_comm m i, Function.iterate_add_apply]

/-- **C40** A trajectory of every `k`-th step: stepping with `repeated(f, k)` subsamples the frames of the trajectory of `f`. -/
theorem C40_trajectory_subsampled (step : C → C) (post : C → Y) (k n i : ℕ) (hi : i < n) (start : Bool) (x : C) :
    (trajectory (m := Id) 0 step (k * n) post true x).1 = (trajectory (m := Id) 0 (repeated (m := Id) 0 step k) n post start x).1 ∧
    (0 < k → (trajectory (m := Id) 0 (repeated (m := Id) 0 step k) n post true x).2[i]? =
      (trajectory (m := Id) 0 step (k * n) post true x).2[k * i]?) := by
  have e : repeated (m := Id) 0 step k = step^[k] := funext (C40_repeated step k)
  rw [e, (C40_trajectory _ post _ _ x).1, (C40_trajectory _ post _ _ x).1, (C40_trajectory _ post _ _ x).2,
    (C40_trajectory _ post _ _ x).2]
  refine ⟨by rw [Function.iterate_mul], fun hk => ?_⟩
  have h2 : k * i < k * n := Nat.mul_lt_mul_of_pos_left hi hk
  rw [List.getElem?_map, List.getElem?_map, List.getElem?_range hi, List.getElem?_range h2]
  simp only [Option.map_some, if_true]
  rw [Function.iterate_mul]

end Pure

/-! ### Effects: how often the stepped function is called

`m` is any monad: exceptions, logging, creation of parameters. -/

section Effects
variable {m : Type → Type} [Monad m] [LawfulMonad m] {C Y : Type}

/-- **C40** Outside `init_context` `repeated(f, n)` runs `f` exactly `n` times in sequence, each on the result of the previous one:
for all effects of `f`. -/
theorem C40_calls (f : C → m C) (n : ℕ) (x : C) :
    repeated 0 f 0 x = pure x ∧ repeated 0 f (n + 1) x = (do let y ← f x; repeated 0 f n y) := by
  unfold repeated scanNone
  constructor
  · rw [if_neg (by simp)]
    simp [laxScan]
  · simp only [ne_eq, not_true_eq_false, if_false, List.replicate_succ, laxScan]
    simp

/-- **C40** Inside `init_context` `repeated(f, n)` runs `f` exactly once, whatever `n` is (even 0), and returns its result; nested
repetitions still call the innermost function once. -/
theorem C40_init_repeated (k : ℕ) (hk : k ≠ 0) (f : C → m C) (n n' : ℕ) (x : C) :
    repeated k f n x = f x ∧ repeated k (repeated k f n) n' x = f x := by
  have h : ∀ (g : C → m C) (n : ℕ) (x : C), repeated k g n x = g x := by
    intro g n x
    unfold repeated scanNone
    simp [hk]
  exact ⟨h f n x, by rw [h, h]⟩

/-- **C40** Inside `init_context` `trajectory(f, n, post)` runs `f` and then `post` exactly once each, and returns `n` copies of the
frame: the same number of frames as outside. -/
theorem C40_init_trajectory (k : ℕ) (hk : k ≠ 0) (step : C → m C) (n : ℕ) (post : C → m Y) (start : Bool) (x : C) :
    trajectory k step n post start x = (do
      let c ← step x
      let y ← post (if start then x else c)
      return (c, List.replicate n y)) := by
  unfold trajectory scanNone
  simp [hk]

/-- **C40** The number of frames is `n` in both modes. -/
theorem C40_frame_count (k : ℕ) (step : C → C) (n : ℕ) (post : C → Y) (start : Bool) (x : C) :
    (trajectory (m := Id) k step n post start x).2.length = n := by
  by_cases hk : k = 0
  · subst hk
    rw [(C40_trajectory step post n start x).2]
    simp
  · have := C40_init_trajectory (m := Id) k hk step n post start x
    rw [this]
    show (List.replicate n _).length = n
    simp

/-- **C40** The frames of both modes agree in the first one, and the final states if one step is taken. -/
theorem C40_init_first_frame (k : ℕ) (hk : k ≠ 0) (step : C → C) (n : ℕ) (post : C → Y) (start : Bool) (x : C) :
    (trajectory (m := Id) k step n post start x).2.head? = (trajectory (m := Id) 0 step n post start x).2.head? ∧
    trajectory (m := Id) k step 1 post start x = trajectory (m := Id) 0 step 1 post start x := by
  have e := C40_init_trajectory (m := Id) k hk step n post start x
  have e1 := C40_init_trajectory (m := Id) k hk step 1 post start x
  constructor
  · rw [e, (C40_trajectory step post n start x).2]
    cases n with
    | zero => rfl
    | succ n =>
      rw [List.range_succ_eq_map]
      cases start <;> rfl
  · rw [e1]
    cases start <;> rfl

end Effects

/-- **C40** `init_context` restores the counter whether or not its body raises, provided the body does; contexts therefore nest:
inside any number of them scan is in its initialization mode, and after the outermost one it is back in its normal mode. -/
theorem C40_init_context {α σ : Type} (body : ℕ → σ → Except Err α × ℕ × σ) (hbody : ∀ n s, (body n s).2.1 = n) (n : ℕ) (s : σ) :
    (initContext body n s).2.1 = n ∧ (initContext body n s).1 = (body (n + 1) s).1 ∧
      (initContext body n s).2.2 = (body (n + 1) s).2.2 ∧
      (∀ n s, (initContext body n s).2.1 = n) ∧ (initContext (initContext body) n s).1 = (body (n + 2) s).1 := by
  have h : ∀ n s, (initContext body n s).2.1 = n := by
    intro n s
    simp [initContext, hbody]
  exact ⟨h n s, rfl, rfl, h, rfl⟩

/-! ### Non-vacuity -/

/-- logging: a step that doubles a number and reports it -/
def loggedDouble (x : ℕ) : StateM (List ℕ) ℕ := fun log => (2 * x, log ++ [x])

example : (repeated 0 loggedDouble 3 5 : StateM (List ℕ) ℕ) [] = (40, [5, 10, 20]) := rfl
example : (repeated 1 loggedDouble 3 5 : StateM (List ℕ) ℕ) [] = (10, [5]) := rfl
example : (repeated 1 loggedDouble 0 5 : StateM (List ℕ) ℕ) [] = (10, [5]) := rfl
example : trajectory (m := Id) 0 (fun x : ℕ => 2 * x) 3 (fun x => x + 1) true 5 = (40, [6, 11, 21]) := rfl
example : trajectory (m := Id) 0 (fun x : ℕ => 2 * x) 3 (fun x => x + 1) false 5 = (40, [11, 21, 41]) := rfl
example : trajectory (m := Id) 2 (fun x : ℕ => 2 * x) 3 (fun x => x + 1) false 5 = (10, [11, 11, 11]) := rfl

/-- a body that raises, leaving the counter alone -/
example : initContext (α := ℕ) (fun n (s : ℕ) => (Except.error Err.value, n, s + n)) 0 7 = (Except.error Err.value, 0, 8) := rfl

end JaxCfd
