import Verif.Props.ConvergenceWalls
import Verif.Props.ConvergenceImplicit

/-!
# C74: convergence of implicit diffusion between walls
-/

namespace JaxCfd
variable {d : ℕ} [HasNan ℝ]

section
variable {u : GridVariable d ℝ} {f : (Fin d → ℝ) → ℝ}

/-- The implicit equation for the error bounds the error, in spite of the defect of the Laplacian at Dirichlet walls. -/
theorem wall_implicit_step (hu : u.Supported) (hg : u.array.grid.Valid) (κ : ℝ) (hκ : 0 ≤ κ) {M2 M3 : Fin d → ℝ} (hM2 : ∀ a, 0 ≤ M2 a) (hM3 : ∀ a, 0 ≤ M3 a) {Z : ℝ}
    (hZM : ∀ a, (u.bc.types a).1 = .dirichlet ∨ (u.bc.types a).2 = .dirichlet → M2 a * u.array.grid.step a ^ 2 / 8 ≤ Z)
    (hE : ∀ j : Idx d, InR u.interior j → |u.array.data j - (sampled u f).array.data j - κ * ((∑ a, (u.above a j + u.below a j - 2 * u.array.data j) / u.array.grid.step a ^ 2) -
        ∑ a, ((sampled u f).above a j + (sampled u f).below a j - 2 * (sampled u f).array.data j) / u.array.grid.step a ^ 2)| ≤ Z + κ * ∑ a, u.wallError a (M2 a) (M3 a) j)
    {i : Idx d} (hi : InR u.interior i) :
    |u.array.data i - (sampled u f).array.data i| ≤ Z + κ * ∑ a, (neumannShare (u.bc.types a).1 (M3 a) (u.array.grid.step a) + neumannShare (u.bc.types a).2 (M3 a) (u.array.grid.step a)) := by
  obtain ⟨k, hk, hmax⟩ := Finset.exists_max_image (box u.interior) (fun j => |u.array.data j - (sampled u f).array.data j|) ⟨i, mem_box.2 hi⟩
  have hk' := mem_box.1 hk
  refine (hmax i (mem_box.2 hi)).trans ?_
  by_contra hlt
  rw [not_le] at hlt
  set e := u.array.data k - (sampled u f).array.data k with he
  set Y := Z + κ * ∑ a, (neumannShare (u.bc.types a).1 (M3 a) (u.array.grid.step a) + neumannShare (u.bc.types a).2 (M3 a) (u.array.grid.step a)) with hY
  have hst : ∀ a, 0 < u.array.grid.step a ^ 2 := fun a => pow_pos (hg.step_pos a) 2
  have hZY : Z ≤ Y := le_add_of_nonneg_right (mul_nonneg hκ (Finset.sum_nonneg fun a _ => add_nonneg (neumannShare_nonneg _ (hM3 a) (hg.step_pos a).le) (neumannShare_nonneg _ (hM3 a) (hg.step_pos a).le)))
  have hb : ∀ j : Idx d, InR u.array.shape j → (∀ b, j b < u.interior b) → |u.array.data j - (sampled u f).array.data j| ≤ |e| := fun j hj hjn => hmax j (mem_box.2 fun b => ⟨(hj b).1, hjn b⟩)
  have hkin : ∀ b, k b < u.interior b := fun b => (hk' b).2
  choose p hp0 hp1 hpd hpe hpu using fun a => above_error (f := f) hu hg a (hM2 a) (hM3 a) (abs_nonneg e) hb hk'.of_interior hkin
  choose m hm0 hm1 hmd hme hmu using fun a => below_error (f := f) hu hg a (hM2 a) (hM3 a) (abs_nonneg e) hb hk'.of_interior hkin
  have hid : (1 + κ * ∑ a, (2 + p a + m a) / u.array.grid.step a ^ 2) * e =
      (e - κ * ((∑ a, (u.above a k + u.below a k - 2 * u.array.data k) / u.array.grid.step a ^ 2) -
        ∑ a, ((sampled u f).above a k + (sampled u f).below a k - 2 * (sampled u f).array.data k) / u.array.grid.step a ^ 2)) +
        κ * ∑ a, ((u.above a k - (sampled u f).above a k + p a * e) + (u.below a k - (sampled u f).below a k + m a * e)) / u.array.grid.step a ^ 2 := by
    have hsum : (∑ a, (u.above a k + u.below a k - 2 * u.array.data k) / u.array.grid.step a ^ 2) -
        ∑ a, ((sampled u f).above a k + (sampled u f).below a k - 2 * (sampled u f).array.data k) / u.array.grid.step a ^ 2 =
        (∑ a, ((u.above a k - (sampled u f).above a k + p a * e) + (u.below a k - (sampled u f).below a k + m a * e)) / u.array.grid.step a ^ 2) -
          (∑ a, (2 + p a + m a) / u.array.grid.step a ^ 2) * e := by
      rw [Finset.sum_mul, ← Finset.sum_sub_distrib, ← Finset.sum_sub_distrib]
      refine Finset.sum_congr rfl fun a _ => ?_
      rw [he]
      ring
    rw [hsum]
    ring
  have hcoef : 0 ≤ 1 + κ * ∑ a, (2 + p a + m a) / u.array.grid.step a ^ 2 := by
    refine add_nonneg zero_le_one (mul_nonneg hκ (Finset.sum_nonneg fun a _ => div_nonneg ?_ (hst a).le))
    linarith [hp0 a, hm0 a]
  have h0 : (1 + κ * ∑ a, (2 + p a + m a) / u.array.grid.step a ^ 2) * |e| = |(1 + κ * ∑ a, (2 + p a + m a) / u.array.grid.step a ^ 2) * e| := by rw [abs_mul, abs_of_nonneg hcoef]
  have h1 := hE k hk'
  have h2 : |κ * ∑ a, ((u.above a k - (sampled u f).above a k + p a * e) + (u.below a k - (sampled u f).below a k + m a * e)) / u.array.grid.step a ^ 2| ≤
      κ * ∑ a, ((1 - p a) * |e| + (1 - m a) * |e|) / u.array.grid.step a ^ 2 := by
    rw [abs_mul, abs_of_nonneg hκ]
    refine mul_le_mul_of_nonneg_left ((Finset.abs_sum_le_sum_abs _ _).trans (Finset.sum_le_sum fun a _ => ?_)) hκ
    rw [abs_div, abs_of_pos (hst a)]
    exact div_le_div_of_nonneg_right ((abs_add_le _ _).trans (add_le_add (hpe a) (hme a))) (hst a).le
  have h3 : κ * ∑ a, u.wallError a (M2 a) (M3 a) k ≤ κ * ∑ a, (2 * (p a + m a) * |e| / u.array.grid.step a ^ 2 +
      (neumannShare (u.bc.types a).1 (M3 a) (u.array.grid.step a) + neumannShare (u.bc.types a).2 (M3 a) (u.array.grid.step a))) := by
    refine mul_le_mul_of_nonneg_left (Finset.sum_le_sum fun a _ => ?_) hκ
    have hw : u.wallError a (M2 a) (M3 a) k = u.lowerError a (M2 a) (M3 a) k + u.upperError a (M2 a) (M3 a) k := rfl
    have hq : (p a + m a) * (M2 a / 4) ≤ 2 * (p a + m a) * |e| / u.array.grid.step a ^ 2 := by
      rw [le_div_iff₀ (hst a)]
      by_cases h : p a + m a = 0
      · rw [h]; simp
      · have hdir : (u.bc.types a).1 = .dirichlet ∨ (u.bc.types a).2 = .dirichlet := by
          by_cases h' : p a = 0
          · exact Or.inl (hmd a fun h'' => h (by rw [h', h'', add_zero])).1
          · exact Or.inr (hpd a h').1
        have := mul_le_mul_of_nonneg_left ((hZM a hdir).trans (hZY.trans hlt.le)) (add_nonneg (hp0 a) (hm0 a))
        linarith
    rw [hw]
    linarith [hpu a, hmu a]
  have h4 : κ * ∑ a, ((1 - p a) * |e| + (1 - m a) * |e|) / u.array.grid.step a ^ 2 + κ * ∑ a, 2 * (p a + m a) * |e| / u.array.grid.step a ^ 2 =
      κ * (∑ a, (2 + p a + m a) / u.array.grid.step a ^ 2) * |e| := by
    have : ∑ a, ((1 - p a) * |e| + (1 - m a) * |e|) / u.array.grid.step a ^ 2 + ∑ a, 2 * (p a + m a) * |e| / u.array.grid.step a ^ 2 =
        (∑ a, (2 + p a + m a) / u.array.grid.step a ^ 2) * |e| := by
      rw [Finset.sum_mul, ← Finset.sum_add_distrib]
      refine Finset.sum_congr rfl fun a _ => ?_
      ring
    linear_combination κ * this
  rw [hid] at h0
  rw [Finset.sum_add_distrib, mul_add] at h3
  have h5 := abs_add_le (e - κ * ((∑ a, (u.above a k + u.below a k - 2 * u.array.data k) / u.array.grid.step a ^ 2) -
        ∑ a, ((sampled u f).above a k + (sampled u f).below a k - 2 * (sampled u f).array.data k) / u.array.grid.step a ^ 2))
    (κ * ∑ a, ((u.above a k - (sampled u f).above a k + p a * e) + (u.below a k - (sampled u f).below a k + m a * e)) / u.array.grid.step a ^ 2)
  linarith

end

theorem BackwardEuler.supported {u w : GridVariable d ℝ} {nu dt : ℝ} (h : BackwardEuler u w nu dt) (hu : u.Supported) : w.Supported := fun a => by
  rw [h.bc, h.grid, h.shape, h.offset]
  exact hu a

/-- **C74** Implicit (backward Euler) diffusion converges between walls for every time step, to second order where the walls carry Dirichlet conditions: the error inside the domain after `n` steps is at most the larger
of the initial error and `M₂ h² / 8`, plus `n dt` times `T dt / 2 + ν Σ M₄ h² / 12` and a share `ν M₃ h / 24` for every Neumann wall. -/
theorem C74_wall_implicit_diffusion (c : ℕ → GridVariable d ℝ) (hc : (c 0).Supported) (g : Grid d ℝ) (hgr : (c 0).array.grid = g) (hg : g.Valid) (nu dt : ℝ) (hnu : 0 ≤ nu) (hdt : 0 ≤ dt)
    (hrun : ∀ n, BackwardEuler (c n) (c (n + 1)) nu dt)
    (C : ℝ → (Fin d → ℝ) → ℝ) (T : ℝ) (M2 M3 M4 : Fin d → ℝ) (hCt : SmoothInTime C T) (hCb : ∀ t, 0 ≤ t → (c 0).bc.Obeys g (C t))
    (h2 : ∀ t, 0 ≤ t → ∀ a, SmoothAlong 2 a (M2 a) (C t)) (h3 : ∀ t, 0 ≤ t → ∀ a, SmoothAlong 3 a (M3 a) (C t)) (h4 : ∀ t, 0 ≤ t → ∀ a, SmoothAlong 4 a (M4 a) (C t))
    (heat : ∀ t, 0 ≤ t → ∀ x, deriv (fun s => C s x) t = nu * ∑ a, partialDeriv 2 a (C t) x)
    (ε : ℝ) (hini : ∀ i : Idx d, InR (c 0).interior i → |(c 0).array.data i - C 0 (g.position (c 0).array.offset i)| ≤ ε)
    (hεM : ∀ a, ((c 0).bc.types a).1 = .dirichlet ∨ ((c 0).bc.types a).2 = .dirichlet → M2 a * g.step a ^ 2 / 8 ≤ ε) (n : ℕ) :
    ∀ i : Idx d, InR (c 0).interior i → |(c n).array.data i - C (n * dt) (g.position (c 0).array.offset i)| ≤
      ε + n * dt * (T * dt / 2 + nu * ∑ a, (M4 a * g.step a ^ 2 / 12 + ((if ((c 0).bc.types a).1 = .neumann then M3 a * g.step a / 24 else 0) +
        if ((c 0).bc.types a).2 = .neumann then M3 a * g.step a / 24 else 0))) := by
  have hlay : ∀ n, (c n).Supported ∧ (c n).bc = (c 0).bc ∧ (c n).array.grid = g ∧ (c n).array.shape = (c 0).array.shape ∧ (c n).array.offset = (c 0).array.offset := fun n => by
    induction n with
    | zero => exact ⟨hc, rfl, hgr, rfl, rfl⟩
    | succ n ih =>
      have hr := hrun n
      exact ⟨hr.supported ih.1, hr.bc.trans ih.2.1, hr.grid.trans ih.2.2.1, hr.shape.trans ih.2.2.2.1, hr.offset.trans ih.2.2.2.2⟩
  have hint : ∀ n, (c n).interior = (c 0).interior := fun n => by
    obtain ⟨-, hbc, -, hsh, ho⟩ := hlay n
    funext a
    unfold GridVariable.interior
    rw [hbc, hsh, ho]
  set x0 : Fin d → ℝ := fun _ => 0
  have hT : 0 ≤ T := (abs_nonneg _).trans (hCt.2 x0 0 le_rfl)
  have hM2 : ∀ a, 0 ≤ M2 a := fun a => (abs_nonneg _).trans ((h2 0 le_rfl a).2 x0)
  have hM3 : ∀ a, 0 ≤ M3 a := fun a => (abs_nonneg _).trans ((h3 0 le_rfl a).2 x0)
  have hM4 : ∀ a, 0 ≤ M4 a := fun a => (abs_nonneg _).trans ((h4 0 le_rfl a).2 x0)
  set N : Fin d → ℝ := fun a => neumannShare ((c 0).bc.types a).1 (M3 a) (g.step a) + neumannShare ((c 0).bc.types a).2 (M3 a) (g.step a) with hN
  set R := T * dt / 2 + nu * ∑ a, (M4 a * g.step a ^ 2 / 12 + N a) with hR
  have hN0 : ∀ a, 0 ≤ N a := fun a => add_nonneg (neumannShare_nonneg _ (hM3 a) (hg.step_pos a).le) (neumannShare_nonneg _ (hM3 a) (hg.step_pos a).le)
  have hR0 : 0 ≤ R := by
    refine add_nonneg (by positivity) (mul_nonneg hnu (Finset.sum_nonneg fun a _ => ?_))
    have := hM4 a
    exact add_nonneg (by positivity) (hN0 a)
  suffices h : ∀ i : Idx d, InR (c 0).interior i → |(c n).array.data i - C (n * dt) (g.position (c 0).array.offset i)| ≤ ε + n * dt * R from h
  induction n with
  | zero => simpa using hini
  | succ n ih =>
    intro i hi
    have hw := hrun n
    obtain ⟨hsup, hbc, hgn, hshn, hon⟩ := hlay (n + 1)
    have et : ((n + 1 : ℕ) : ℝ) * dt = n * dt + dt := by push_cast; ring
    have ht0 : 0 ≤ (n : ℝ) * dt := by positivity
    have ht : 0 ≤ ((n + 1 : ℕ) : ℝ) * dt := by positivity
    set t := ((n + 1 : ℕ) : ℝ) * dt with htd
    set s := sampled (c (n + 1)) (C t) with hsd
    have hss : s.Supported := hsup
    obtain ⟨l, hl, -, -, -, hlb⟩ := C73_wall_laplacian hss (by show (c (n + 1)).array.grid.Valid; rw [hgn]; exact hg)
      (by show BC.Obeys (c (n + 1)).bc (c (n + 1)).array.grid _; rw [hgn, hbc]; exact hCb t ht) (sampled_samples _ _) M2 M3 M4 (h2 t ht) (h3 t ht) (h4 t ht)
    obtain ⟨l', hl', -, -, -, hld⟩ := laplacian_supported' hss
    obtain rfl : l = l' := Except.ok.inj (hl.symm.trans hl')
    obtain ⟨k, hk, hkeq⟩ := hw.step
    obtain ⟨k', hk', -, -, -, hkd⟩ := laplacian_supported' hsup
    obtain rfl : k = k' := Except.ok.inj (hk.symm.trans hk')
    have hκ : 0 ≤ nu * dt := by positivity
    have hsp : ∀ j, s.array.data j = C t (g.position (c 0).array.offset j) := fun j => by
      show C t ((c (n + 1)).array.grid.position (c (n + 1)).array.offset j) = _
      rw [hgn, hon]
    have hQ0 : 0 ≤ ∑ a, M4 a * g.step a ^ 2 / 12 := Finset.sum_nonneg fun a _ => by have := hM4 a; positivity
    have hZ : ε ≤ ε + n * dt * R + (T * dt ^ 2 / 2 + nu * dt * ∑ a, M4 a * g.step a ^ 2 / 12) := by
      have : 0 ≤ n * dt * R + (T * dt ^ 2 / 2 + nu * dt * ∑ a, M4 a * g.step a ^ 2 / 12) := by positivity
      linarith
    have hstep := wall_implicit_step (f := C t) hsup (by rw [hgn]; exact hg) (nu * dt) hκ hM2 hM3 (Z := ε + n * dt * R + (T * dt ^ 2 / 2 + nu * dt * ∑ a, M4 a * g.step a ^ 2 / 12))
      (fun a ha => by rw [hbc] at ha; rw [hgn]; exact (hεM a ha).trans hZ) (fun j hj => ?_) (i := i) (by rw [hint]; exact hi)
    · rw [hgn, hbc, hsp] at hstep
      refine hstep.trans (le_of_eq ?_)
      have hN' : ∑ a, (neumannShare ((c 0).bc.types a).1 (M3 a) (g.step a) + neumannShare ((c 0).bc.types a).2 (M3 a) (g.step a)) = ∑ a, N a := rfl
      rw [hN', et, hR, Finset.sum_add_distrib]
      ring
    · have hj0 : InR (c 0).interior j := by rw [← hint (n + 1)]; exact hj
      have hjs : InR (c (n + 1)).array.shape j := hj.of_interior
      have hjs' : InR s.array.shape j := hjs
      have hlb' := hlb j hjs' fun a => (hj a).2
      have hkj := hkeq j (by rw [hint]; exact hj0)
      have k1 := ih j hj0
      have k3 := time_bound hCt (g.position (c 0).array.offset j) ht (dt := -dt) (by rw [et]; linarith)
      rw [show t + -dt = n * dt by rw [et]; ring, heat t ht] at k3
      have hle : ∑ a, (s.above a j + s.below a j - 2 * s.array.data j) / (c (n + 1)).array.grid.step a ^ 2 = l.data j := (hld j hjs').symm
      rw [hle, ← hkd j hjs, hsp]
      have epos : s.array.grid.position s.array.offset j = g.position (c 0).array.offset j := by
        show (c (n + 1)).array.grid.position (c (n + 1)).array.offset j = _
        rw [hgn, hon]
      have estp : s.array.grid = g := hgn
      have ewall : ∀ a, s.wallError a (M2 a) (M3 a) j = (c (n + 1)).wallError a (M2 a) (M3 a) j := fun _ => rfl
      rw [epos, estp, Finset.sum_add_distrib] at hlb'
      simp only [ewall] at hlb'
      set x := g.position (c 0).array.offset j
      set S := ∑ a, partialDeriv 2 a (C t) x
      have k4 : |nu * dt * (l.data j - S)| ≤ nu * dt * ((∑ a, M4 a * g.step a ^ 2 / 12) + ∑ a, (c (n + 1)).wallError a (M2 a) (M3 a) j) := by
        rw [abs_mul, abs_of_nonneg hκ]
        exact mul_le_mul_of_nonneg_left hlb' hκ
      have e : (c (n + 1)).array.data j - C t x - nu * dt * (k.data j - l.data j) =
          ((c n).array.data j - C (n * dt) x) + (C (n * dt) x - (C t x + -dt * (nu * S))) + nu * dt * (l.data j - S) := by
        rw [← hkj]
        ring
      rw [e]
      refine (abs_add_le _ _).trans ((add_le_add ((abs_add_le _ _).trans (add_le_add k1 k3)) k4).trans (le_of_eq ?_))
      ring

open Fixtures Real in
/-- C74 for the direct diffusion solver between two insulated walls at `π/2` and `3π/2` and the decaying wave `exp (-ν t) sin x`, for every resolution and time step. -/
example (n : ℕ) (hn : 3 ≤ n) (nu dt : ℝ) (hnu : 0 ≤ nu) (hdt : 0 ≤ dt) (tpu : Bool) (eigh : EighFn ℝ) (heigh : ∀ m, m.Symmetric → IsEigh m (eigh m)) :
    ∃ c : ℕ → GridVariable 1 ℝ, (∀ i, (c 0).array.data i = sin (π / 2 + ((i 0 : ℝ) + 1 / 2) * (π / n))) ∧ (∀ a, (c 0).bc.types a = (.neumann, .neumann)) ∧
      (∀ k, diffusionFastDiag tpu eigh (fun _ : Fin 1 => c k) nu dt none = .ok fun _ => c (k + 1)) ∧
      ∀ m : ℕ, ∀ i : Idx 1, 0 ≤ i 0 → i 0 < n → |(c m).array.data i - exp (-nu * (m * dt)) * sin (π / 2 + ((i 0 : ℝ) + 1 / 2) * (π / n))| ≤
        m * dt * (nu ^ 2 * dt / 2 + nu * ((π / n) ^ 2 / 12 + (π / n) / 12)) := by
  set g : Grid 1 ℝ := ⟨fun _ => n, fun _ => (π / 2, 3 * π / 2)⟩ with hgd
  have hgv : g.Valid := fun _ => ⟨by show 0 < n; omega, by show π / 2 < 3 * π / 2; linarith [pi_pos]⟩
  set c0 : GridVariable 1 ℝ := ⟨⟨⟨fun _ => n, fun i => Fixtures.wave 1 0 (g.position (fun _ => 1 / 2) i)⟩, fun _ => 1 / 2, g⟩,
    ⟨.homogeneous, fun _ => (.neumann, .neumann), fun _ => (some 0, some 0)⟩⟩ with hc0
  have e2 : ∀ a : Fin 1, g.step a = π / n := fun a => by
    show (3 * π / 2 - π / 2) / (n : ℝ) = _
    congr 1
    ring
  have hpos : ∀ i : Idx 1, g.position (fun _ => 1 / 2) i 0 = π / 2 + ((i 0 : ℝ) + 1 / 2) * (π / n) := fun i => by
    show π / 2 + ((i 0 : ℝ) + ((1 / 2 : ℚ) : ℝ)) * g.step 0 = _
    rw [e2]
    norm_num
  set F : GridVariable 1 ℝ → GridVariable 1 ℝ := fun u => match diffusionFastDiag tpu eigh (fun _ : Fin 1 => u) nu dt none with | .ok r => r 0 | .error _ => u with hF
  set c : ℕ → GridVariable 1 ℝ := fun k => F^[k] c0 with hcd
  have hstep : ∀ u : GridVariable 1 ℝ, u.bc = c0.bc → u.array.shape = c0.array.shape → u.array.offset = c0.array.offset → u.array.grid = c0.array.grid →
      diffusionFastDiag tpu eigh (fun _ : Fin 1 => u) nu dt none = .ok (fun _ => F u) ∧ BackwardEuler u (F u) nu dt := fun u hb hs ho hg => by
    have hsup : u.Supported := fun a => ⟨by rw [hs, hg], by rw [hg]; show 0 < n; omega, Or.inr (Or.inl ⟨Or.inr (by rw [hb]), Or.inr (by rw [hb]), by rw [ho]⟩)⟩
    obtain ⟨r, hr, hbe⟩ := C36_diffusion one_ne_zero (fun _ => u) nu dt (by positivity) (fun _ => hsup) (fun _ b => by rw [hg]; exact hn) (fun _ b => by rw [hg]; exact (hgv b).2)
      (fun _ => Or.inl fun a => Or.inr (by rw [hb]; exact ⟨rfl, rfl⟩)) tpu eigh heigh none (Or.inl rfl)
    have hFu : F u = r 0 := by rw [hF]; dsimp only; rw [hr]
    refine ⟨?_, by rw [hFu]; exact hbe 0⟩
    rw [hr, hFu]
    congr 1
    funext b
    rw [Subsingleton.elim b 0]
  have hlay : ∀ k, (c k).bc = c0.bc ∧ (c k).array.shape = c0.array.shape ∧ (c k).array.offset = c0.array.offset ∧ (c k).array.grid = c0.array.grid := fun k => by
    induction k with
    | zero => exact ⟨rfl, rfl, rfl, rfl⟩
    | succ k ih =>
      have e : c (k + 1) = F (c k) := by rw [hcd]; dsimp only; rw [Function.iterate_succ_apply']
      have hb := (hstep (c k) ih.1 ih.2.1 ih.2.2.1 ih.2.2.2).2
      rw [e]
      exact ⟨hb.bc.trans ih.1, hb.shape.trans ih.2.1, hb.offset.trans ih.2.2.1, hb.grid.trans ih.2.2.2⟩
  have hrun : ∀ k, diffusionFastDiag tpu eigh (fun _ : Fin 1 => c k) nu dt none = .ok (fun _ => c (k + 1)) ∧ BackwardEuler (c k) (c (k + 1)) nu dt := fun k => by
    obtain ⟨h1, h2, h3, h4⟩ := hlay k
    have e : c (k + 1) = F (c k) := by rw [hcd]; dsimp only; rw [Function.iterate_succ_apply']
    rw [e]
    exact hstep (c k) h1 h2 h3 h4
  have hsup : c0.Supported := fun a => ⟨rfl, by show 0 < n; omega, Or.inr (Or.inl ⟨Or.inr rfl, Or.inr rfl, rfl⟩)⟩
  refine ⟨c, fun i => ?_, fun _ => rfl, fun k => (hrun k).1, fun m i h0 h1 => ?_⟩
  · show Fixtures.wave 1 0 _ = _
    unfold Fixtures.wave
    rw [Fin.sum_univ_one, hpos, one_mul, add_zero]
  · have hle : ∀ t : ℝ, 0 ≤ t → |exp (-((1 : ℕ) * nu) * t)| ≤ 1 := fun t ht => by
      rw [abs_of_pos (exp_pos _)]
      exact exp_le_one_iff.2 (by have : 0 ≤ (1 : ℕ) * nu * t := by positivity
                                 linarith)
    have hsm : ∀ k t, 0 ≤ t → ∀ a : Fin 1, SmoothAlong k a 1 (heatWave nu t) := fun k t ht a => by
      have hs := wave_smooth k (exp (-((1 : ℕ) * nu) * t)) 0 a
      exact ⟨hs.1, fun x => (hs.2 x).trans (hle t ht)⟩
    have nd : ¬ (BCType.neumann = BCType.dirichlet) := by decide
    have hob : ∀ t, 0 ≤ t → (c 0).bc.Obeys g (heatWave nu t) := fun t _ b x => by
      obtain rfl : b = 0 := Subsingleton.elim _ _
      have np : ¬ (((BCType.neumann, BCType.neumann) : BCType × BCType) = (.periodic, .periodic)) := by decide
      rw [show (c 0).bc.types 0 = (.neumann, .neumann) from rfl]
      have hcv : (c 0).bc.constantValues 0 = (0, 0) := by
        show BC.constantValues (⟨.homogeneous, fun _ => (.neumann, .neumann), fun _ => (some 0, some 0)⟩ : BC 1 ℝ) 0 = _
        simp [BC.constantValues]
      rw [hcv]
      refine ⟨fun h => absurd h np, fun h => absurd h nd, fun h => absurd h nd, fun _ => ?_, fun _ => ?_⟩
      · unfold heatWave
        rw [wave_one, Fin.sum_univ_one, Function.update_self, add_zero]
        show _ * cos (π / 2) = 0
        rw [cos_pi_div_two, mul_zero]
      · unfold heatWave
        rw [wave_one, Fin.sum_univ_one, Function.update_self, add_zero]
        show _ * cos (3 * π / 2) = 0
        rw [show 3 * π / 2 = π / 2 + π by ring, cos_add_pi, cos_pi_div_two, neg_zero, mul_zero]
    have := C74_wall_implicit_diffusion c hsup g rfl hgv nu dt hnu hdt (fun k => (hrun k).2) (heatWave nu) (((1 : ℕ) * nu) ^ 2)
      (fun _ => 1) (fun _ => 1) (fun _ => 1) (heatWave_smooth hnu) hob (hsm 2) (hsm 3) (hsm 4) (fun t _ x => heatWave_heat nu t x) 0
      (fun i _ => by
        show |Fixtures.wave 1 0 (g.position (fun _ => 1 / 2) i) - Fixtures.wave (exp (-((1 : ℕ) * nu) * 0)) 0 (g.position (fun _ => 1 / 2) i)| ≤ _
        rw [mul_zero, exp_zero, sub_self, abs_zero])
      (fun a h => by rw [show (c 0).bc.types a = (.neumann, .neumann) from rfl] at h; exact (h.elim nd nd).elim) m i (fun a => by
        obtain rfl : a = 0 := Subsingleton.elim _ _
        unfold GridVariable.interior
        rw [if_neg fun h => absurd h.2 (by show ¬ ((1 / 2 : ℚ) = 1); norm_num)]
        exact ⟨h0, h1⟩)
    have ht : (c 0).bc.types 0 = (.neumann, .neumann) := rfl
    rw [Fin.sum_univ_one, e2, ht, if_pos rfl] at this
    have ew : heatWave nu (m * dt) (g.position (c 0).array.offset i) = exp (-nu * (m * dt)) * sin (π / 2 + ((i 0 : ℝ) + 1 / 2) * (π / n)) := by
      show Fixtures.wave _ 0 (g.position (fun _ => 1 / 2) i) = _
      unfold Fixtures.wave
      rw [Fin.sum_univ_one, hpos, add_zero]
      push_cast
      rw [one_mul]
    rw [ew] at this
    refine this.trans (le_of_eq ?_)
    push_cast
    ring

end JaxCfd
