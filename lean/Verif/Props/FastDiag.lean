import Verif.Lemmas.Spectral
import Verif.Props.Fixtures

/-!
# C35, C37: fast diagonalization
-/

set_option linter.unusedSectionVars false
set_option linter.unusedSimpArgs false

namespace JaxCfd
variable {d : ℕ}

/-! ### The hypotheses on the arguments -/

/-- What the caller of `transform` promises: symmetric matrices when `hermitian=True`, circulant ones when `circulant=True`;
and what numpy promises: `eigh` diagonalizes symmetric matrices. -/
structure Promised (eigh : EighFn ℝ) (ops : List (Mat ℝ)) (hermitian circulant : Bool) : Prop where
  symmetric : hermitian = true → ∀ m ∈ ops, m.Symmetric
  circulant : circulant = true → ∀ m ∈ ops, m.Circulant
  eigh : ∀ m, m.Symmetric → IsEigh m (eigh m)

/-- `eigh` as specified exists. -/
theorem exists_eigh : ∃ eigh : EighFn ℝ, ∀ m, m.Symmetric → IsEigh m (eigh m) := by
  classical
  refine ⟨fun m => if h : m.Symmetric then (exists_isEigh m h).choose else ⟨fun _ => 0, m⟩, fun m h => ?_⟩
  simp only [dif_pos h]
  exact (exists_isEigh m h).choose_spec

/-- The possible outcomes of `transform`. -/
theorem transform_cases {tpu : Bool} {eigh : EighFn ℝ} {func : ℂ → ℂ} {ops : List (Mat ℝ)} {hermitian circulant : Bool}
    {impl : Option Impl} {F : NArr d ℝ → Except Err (NArr d ℝ)}
    (h : transform tpu eigh func ops hermitian circulant impl = .ok F) :
    (∀ m ∈ ops, m.rows = m.cols) ∧ ops ≠ [] ∧
    ((hermitian = true ∧ F = hermitianMatmul eigh (fun x => (func x).re) ops) ∨
     (circulant = true ∧ F = circulantFft func ops) ∨
     (circulant = true ∧ F = circulantRfft func ops ∧ ∃ n, (ops.map Mat.rows).getLast? = some n ∧ n % 2 = 0)) := by
  unfold transform at h
  by_cases hsq : ops.any (fun m => decide (m.rows ≠ m.cols)) = true
  · rw [if_pos hsq] at h; cases h
  rw [if_neg hsq] at h
  have hsq' : ∀ m ∈ ops, m.rows = m.cols := by
    intro m hm
    by_contra hne
    exact hsq (List.any_eq_true.2 ⟨m, hm, by simpa using hne⟩)
  refine ⟨hsq', ?_⟩
  obtain ⟨im, h⟩ : ∃ im, transformWith eigh func ops hermitian circulant im = .ok F := by
    cases impl with
    | some i => exact ⟨i, h⟩
    | none =>
      dsimp only at h
      cases hd : defaultImpl tpu (ops.map Mat.rows) with
      | error e => rw [hd] at h; cases h
      | ok i => rw [hd] at h; exact ⟨i, h⟩
  unfold transformWith at h
  cases im with
  | matmul =>
    dsimp only at h
    by_cases hh : hermitian = false
    · rw [if_pos hh] at h; cases h
    · by_cases ho : ops = []
      · rw [if_neg hh, if_pos ho] at h; cases h
      · rw [if_neg hh, if_neg ho] at h
        injection h with h
        exact ⟨ho, Or.inl ⟨by simpa using hh, h.symm⟩⟩
  | fft =>
    dsimp only at h
    by_cases hh : circulant = false
    · rw [if_pos hh] at h; cases h
    · by_cases ho : ops = []
      · rw [if_neg hh, if_pos ho] at h; cases h
      · rw [if_neg hh, if_neg ho] at h
        injection h with h
        exact ⟨ho, Or.inr (Or.inl ⟨by simpa using hh, h.symm⟩)⟩
  | rfft =>
    dsimp only at h
    by_cases hh : circulant = false
    · rw [if_pos hh] at h; cases h
    · rw [if_neg hh] at h
      cases hg : (ops.map Mat.rows).getLast? with
      | none => rw [hg] at h; cases h
      | some n =>
        rw [hg] at h
        dsimp only at h
        by_cases hn : n % 2 = 1
        · rw [if_pos hn] at h; cases h
        · rw [if_neg hn] at h
          injection h with h
          refine ⟨?_, Or.inr (Or.inr ⟨by simpa using hh, h.symm, n, rfl, by omega⟩)⟩
          rintro rfl
          simp at hg
  | other => cases h

/-- **C35.** Whatever implementation `transform` selects, the function it returns applies `func` of the separable operator
`L = A ⊗ I + I ⊗ B + …`: whenever a real polynomial `p` agrees with `func` on the eigenvalues of `L` (the sums of eigenvalues
of the matrices), the result is `p(L) x`, with the shape of `x`. -/
theorem C35_function_of_operator {tpu : Bool} {eigh : EighFn ℝ} {func : ℂ → ℂ} {ops : List (Mat ℝ)} {hermitian circulant : Bool}
    {impl : Option Impl} {F : NArr d ℝ → Except Err (NArr d ℝ)}
    (hT : transform tpu eigh func ops hermitian circulant impl = .ok F) (hP : Promised eigh ops hermitian circulant)
    (x : NArr d ℝ) (hx : List.ofFn x.shape = ops.map Mat.rows)
    (p : Polynomial ℝ) (hp : ∀ z, IsEigenvalueSum d ops z → func z = Polynomial.aeval z p) :
    ∃ r, F x = .ok r ∧ r.shape = x.shape ∧
      ∀ i : Idx d, InR x.shape i → r.data i = polyApply p (separable ops) x.data i := by
  obtain ⟨-, hne, hF⟩ := transform_cases hT
  obtain ⟨k, rfl⟩ : ∃ k, d = k + 1 := by
    rcases Nat.eq_zero_or_pos d with h0 | h0
    · subst h0
      simp at hx
      exact absurd hx hne
    · exact ⟨d - 1, by omega⟩
  rcases hF with ⟨hh, rfl⟩ | ⟨hc, rfl⟩ | ⟨hc, rfl, n, hn, he⟩
  · exact hermitianMatmul_poly eigh func x hx (fun m hm => hP.eigh m (hP.symmetric hh m hm)) p hp
  · exact circulantFft_eq func x hx (hP.circulant hc) p hp
  · refine circulantRfft_eq func x hx (hP.circulant hc) ?_ p hp
    rw [← hx, ofFn_snoc, List.getLast?_append] at hn
    simp at hn
    rw [hn]; exact he

/-- **C35.** Such a polynomial exists for every `func` that commutes with complex conjugation on the eigenvalues (real
functions of a real variable, and their extensions such as `1/z`). -/
theorem C35_polynomial_exists (ops : List (Mat ℝ)) (func : ℂ → ℂ)
    (hf : ∀ z, IsEigenvalueSum d ops z → func ((starRingEnd ℂ) z) = (starRingEnd ℂ) (func z)) :
    ∃ p : Polynomial ℝ, ∀ z, IsEigenvalueSum d ops z → func z = Polynomial.aeval z p := exists_poly ops func hf

/-- **C35.** The identity function gives the operator itself: the matrices applied along their axes and added. -/
theorem C35_identity_function {tpu : Bool} {eigh : EighFn ℝ} {ops : List (Mat ℝ)} {hermitian circulant : Bool}
    {impl : Option Impl} {F : NArr d ℝ → Except Err (NArr d ℝ)}
    (hT : transform tpu eigh (fun z => z) ops hermitian circulant impl = .ok F) (hP : Promised eigh ops hermitian circulant)
    (x : NArr d ℝ) (hx : List.ofFn x.shape = ops.map Mat.rows) :
    ∃ r, F x = .ok r ∧ r.shape = x.shape ∧ ∀ i : Idx d, InR x.shape i →
      r.data i = ∑ a, ∑ j ∈ Finset.Ico (0 : ℤ) (x.shape a), (opAt ops a).e (i a) j * x.data (Function.update i a j) := by
  obtain ⟨r, h1, h2, h3⟩ := C35_function_of_operator hT hP x hx Polynomial.X (fun z _ => (Polynomial.aeval_X z).symm)
  refine ⟨r, h1, h2, fun i hi => ?_⟩
  obtain ⟨hl, hr⟩ := opAt_rows hx
  rw [h3 i hi, separable_eq hr, polyApply_X]
  rfl

/-- Kernels that diagonalize the operators exist whenever `transform` succeeds. -/
theorem transform_diag {tpu : Bool} {eigh : EighFn ℝ} {func : ℂ → ℂ} {ops : List (Mat ℝ)} {hermitian circulant : Bool}
    {impl : Option Impl} {F : NArr d ℝ → Except Err (NArr d ℝ)}
    (hT : transform tpu eigh func ops hermitian circulant impl = .ok F) (hP : Promised eigh ops hermitian circulant)
    (s : Fin d → ℕ) (hx : List.ofFn s = ops.map Mat.rows) : ∃ w v ev, Diag s ops w v ev := by
  obtain ⟨-, -, hF⟩ := transform_cases hT
  rcases hF with ⟨hh, -⟩ | ⟨hc, -⟩ | ⟨hc, -⟩
  · exact ⟨_, _, _, eigh_diag eigh hx (fun m hm => hP.eigh m (hP.symmetric hh m hm))⟩
  · exact ⟨_, _, _, circulant_diag hx (hP.circulant hc)⟩
  · exact ⟨_, _, _, circulant_diag hx (hP.circulant hc)⟩

/-- **C35.** Applying the transforms of `f` and `g` one after the other is the transform of the product `f·g`, also when they
were built with different implementations. -/
theorem C35_composition {tpu tpu' tpu'' : Bool} {eigh : EighFn ℝ} {f g : ℂ → ℂ} {ops : List (Mat ℝ)} {hermitian circulant : Bool}
    {impl impl' impl'' : Option Impl} {F G H : NArr d ℝ → Except Err (NArr d ℝ)}
    (hF : transform tpu eigh f ops hermitian circulant impl = .ok F)
    (hG : transform tpu' eigh g ops hermitian circulant impl' = .ok G)
    (hH : transform tpu'' eigh (fun z => f z * g z) ops hermitian circulant impl'' = .ok H)
    (hP : Promised eigh ops hermitian circulant)
    (hf : ∀ z, IsEigenvalueSum d ops z → f ((starRingEnd ℂ) z) = (starRingEnd ℂ) (f z))
    (hg : ∀ z, IsEigenvalueSum d ops z → g ((starRingEnd ℂ) z) = (starRingEnd ℂ) (g z))
    (x : NArr d ℝ) (hx : List.ofFn x.shape = ops.map Mat.rows) :
    ∃ y r r', G x = .ok y ∧ F y = .ok r ∧ H x = .ok r' ∧ r.shape = r'.shape ∧
      ∀ i : Idx d, InR x.shape i → r.data i = r'.data i := by
  obtain ⟨p, hp⟩ := exists_poly ops f hf
  obtain ⟨q, hq⟩ := exists_poly ops g hg
  obtain ⟨hl, hr⟩ := opAt_rows hx
  obtain ⟨y, a1, a2, a3⟩ := C35_function_of_operator hG hP x hx q hq
  obtain ⟨r, b1, b2, b3⟩ := C35_function_of_operator hF hP y (by rw [a2]; exact hx) p hp
  obtain ⟨r', c1, c2, c3⟩ := C35_function_of_operator hH hP x hx (p * q) (fun z hz => by
    rw [map_mul, hp z hz, hq z hz])
  refine ⟨y, r, r', a1, b1, c1, by rw [b2, a2, c2], fun i hi => ?_⟩
  rw [b3 i (by rw [a2]; exact hi), c3 i hi]
  simp only [separable_eq hr] at a3 ⊢
  rw [polyApply_mul]
  exact polyApply_congr p a3 i hi

/-- **C35.** All implementations agree: two transforms of the same function of the same matrices, built with any
implementations that accept them, return the same array. -/
theorem C35_implementations_agree {tpu tpu' : Bool} {eigh : EighFn ℝ} {f : ℂ → ℂ} {ops : List (Mat ℝ)} {hermitian circulant : Bool}
    {impl impl' : Option Impl} {F G : NArr d ℝ → Except Err (NArr d ℝ)}
    (hF : transform tpu eigh f ops hermitian circulant impl = .ok F)
    (hG : transform tpu' eigh f ops hermitian circulant impl' = .ok G)
    (hP : Promised eigh ops hermitian circulant)
    (hf : ∀ z, IsEigenvalueSum d ops z → f ((starRingEnd ℂ) z) = (starRingEnd ℂ) (f z))
    (x : NArr d ℝ) (hx : List.ofFn x.shape = ops.map Mat.rows) :
    ∃ r r', F x = .ok r ∧ G x = .ok r' ∧ r.shape = r'.shape ∧ ∀ i : Idx d, InR x.shape i → r.data i = r'.data i := by
  obtain ⟨p, hp⟩ := exists_poly ops f hf
  obtain ⟨r, b1, b2, b3⟩ := C35_function_of_operator hF hP x hx p hp
  obtain ⟨r', c1, c2, c3⟩ := C35_function_of_operator hG hP x hx p hp
  exact ⟨r, r', b1, c1, by rw [b2, c2], fun i hi => by rw [b3 i hi, c3 i hi]⟩

theorem pinvFn_conj {cutoff : ℝ} (z : ℂ) : pinvFn cutoff ((starRingEnd ℂ) z) = (starRingEnd ℂ) (pinvFn cutoff z) := by
  unfold pinvFn
  rw [Complex.norm_conj]
  split_ifs
  · rw [map_div₀, map_one]
  · rw [map_zero]

/-- **C35.** `pseudoinverse`, with a cutoff (at least zero) that only discards the eigenvalue zero, is a generalized inverse of
the operator `L`: it inverts `L` on its range (`L P L y = L y`), its result contains no part that `P L` does not reproduce
(`P L P x = P x`), and it vanishes on the kernel of `L`. -/
theorem C35_pseudoinverse {tpu : Bool} {eigh : EighFn ℝ} {cutoff : ℝ} {ops : List (Mat ℝ)} {hermitian circulant : Bool}
    {impl : Option Impl} {P : NArr d ℝ → Except Err (NArr d ℝ)}
    (hT : pseudoinverse tpu eigh cutoff ops hermitian circulant impl = .ok P) (hP : Promised eigh ops hermitian circulant)
    (h0 : 0 ≤ cutoff) (hcut : ∀ z, IsEigenvalueSum d ops z → ‖z‖ ≤ cutoff → z = 0)
    (x : NArr d ℝ) (hx : List.ofFn x.shape = ops.map Mat.rows) :
    ∃ r, P x = .ok r ∧ r.shape = x.shape ∧
      (∀ y : Idx d → ℝ, (∀ i : Idx d, InR x.shape i → x.data i = separable ops y i) →
        ∀ i : Idx d, InR x.shape i → separable ops r.data i = x.data i) ∧
      (∃ r', P ⟨x.shape, separable ops r.data⟩ = .ok r' ∧ ∀ i : Idx d, InR x.shape i → r'.data i = r.data i) ∧
      ((∀ i : Idx d, InR x.shape i → separable ops x.data i = 0) → ∀ i : Idx d, InR x.shape i → r.data i = 0) := by
  obtain ⟨p, hp⟩ := exists_poly (d := d) ops (pinvFn cutoff) (fun z _ => pinvFn_conj z)
  obtain ⟨w, v, ev, hD⟩ := transform_diag hT hP x.shape hx
  obtain ⟨hl, hr⟩ := opAt_rows hx
  obtain ⟨r, b1, b2, b3⟩ := C35_function_of_operator hT hP x hx p hp
  have hz : ∀ z, IsEigenvalueSum d ops z → (z = 0 ∧ Polynomial.aeval z p = 0) ∨ (z ≠ 0 ∧ Polynomial.aeval z p = 1 / z) := by
    intro z hz
    rw [← hp z hz]
    unfold pinvFn
    by_cases hz0 : z = 0
    · left; refine ⟨hz0, ?_⟩; rw [hz0, norm_zero, if_neg (not_lt.2 h0)]
    · right
      refine ⟨hz0, if_pos ?_⟩
      by_contra hle
      exact hz0 (hcut z hz (not_lt.1 hle))
  simp only [separable_eq hr] at b3 ⊢
  have hsep := separable_eq hr
  have pc := fun (a b : Polynomial ℝ) (x : Idx d → ℝ) h => hD.poly_congr hr a b x h
  rw [hsep] at pc
  refine ⟨r, b1, b2, fun y hy i hi => ?_, ?_, fun hk i hi => ?_⟩
  · -- L p(L) L y = L y
    have e1 : BoxEq x.shape r.data (polyApply (p * Polynomial.X) (kronSum x.shape fun a => (opAt ops a).e) y) := by
      intro j hj
      rw [b3 j hj, polyApply_mul, polyApply_X]
      exact polyApply_congr p hy j hj
    have e2 := kronSum_congr (M := fun a => (opAt ops a).e) e1 i hi
    rw [e2, hy i hi, ← polyApply_X, ← polyApply_mul, ← polyApply_X]
    refine pc _ _ y (fun z hz' => ?_) i hi
    rw [map_mul, map_mul, Polynomial.aeval_X]
    rcases hz z hz' with ⟨h1, h2⟩ | ⟨h1, h2⟩
    · rw [h1]; ring
    · rw [h2]; field_simp
  · obtain ⟨r', c1, c2, c3⟩ := C35_function_of_operator hT hP
      (⟨x.shape, kronSum x.shape (fun a => (opAt ops a).e) r.data⟩ : NArr d ℝ) hx p hp
    rw [hsep] at c3
    refine ⟨r', c1, fun i hi => ?_⟩
    rw [c3 i hi, b3 i hi]
    have e1 := kronSum_congr (M := fun a => (opAt ops a).e) (show BoxEq x.shape r.data _ from b3)
    refine (polyApply_congr p e1 i hi).trans ?_
    rw [← polyApply_X, ← polyApply_mul, ← polyApply_mul]
    refine pc _ _ x.data (fun z hz' => ?_) i hi
    rw [map_mul, map_mul, Polynomial.aeval_X]
    rcases hz z hz' with ⟨h1, h2⟩ | ⟨h1, h2⟩
    · rw [h2]; ring
    · rw [h2]; field_simp
  · rw [b3 i hi]
    have e1 : polyApply p (kronSum x.shape fun a => (opAt ops a).e) x.data i =
        polyApply (p * p * Polynomial.X) (kronSum x.shape fun a => (opAt ops a).e) x.data i := by
      refine pc _ _ x.data (fun z hz' => ?_) i hi
      rw [map_mul, map_mul, Polynomial.aeval_X]
      rcases hz z hz' with ⟨h1, h2⟩ | ⟨h1, h2⟩
      · rw [h2]; ring
      · rw [h2]; field_simp
    rw [e1, polyApply_mul, polyApply_X]
    refine (polyApply_congr (p * p) (y := fun _ => 0) hk i hi).trans ?_
    rw [polyApply_aeval]
    exact congrFun (map_zero _) i

/-- **C35.** When zero is not an eigenvalue, `pseudoinverse` is the inverse of the operator. -/
theorem C35_inverse {tpu : Bool} {eigh : EighFn ℝ} {cutoff : ℝ} {ops : List (Mat ℝ)} {hermitian circulant : Bool}
    {impl : Option Impl} {P : NArr d ℝ → Except Err (NArr d ℝ)}
    (hT : pseudoinverse tpu eigh cutoff ops hermitian circulant impl = .ok P) (hP : Promised eigh ops hermitian circulant)
    (hcut : ∀ z, IsEigenvalueSum d ops z → cutoff < ‖z‖ ∧ z ≠ 0)
    (x : NArr d ℝ) (hx : List.ofFn x.shape = ops.map Mat.rows) :
    ∃ r, P x = .ok r ∧ r.shape = x.shape ∧ (∀ i : Idx d, InR x.shape i → separable ops r.data i = x.data i) ∧
      ∀ y : Idx d → ℝ, (∀ i : Idx d, InR x.shape i → separable ops y i = x.data i) →
        ∀ i : Idx d, InR x.shape i → y i = r.data i := by
  obtain ⟨p, hp⟩ := exists_poly (d := d) ops (pinvFn cutoff) (fun z _ => pinvFn_conj z)
  obtain ⟨w, v, ev, hD⟩ := transform_diag hT hP x.shape hx
  obtain ⟨hl, hr⟩ := opAt_rows hx
  obtain ⟨r, b1, b2, b3⟩ := C35_function_of_operator hT hP x hx p hp
  have hz : ∀ z, IsEigenvalueSum d ops z → z ≠ 0 ∧ Polynomial.aeval z p = 1 / z := by
    intro z hz
    rw [← hp z hz]
    exact ⟨(hcut z hz).2, if_pos (hcut z hz).1⟩
  simp only [separable_eq hr] at b3 ⊢
  have pc := fun (a b : Polynomial ℝ) (x : Idx d → ℝ) h => hD.poly_congr hr a b x h
  rw [separable_eq hr] at pc
  refine ⟨r, b1, b2, fun i hi => ?_, fun y hy i hi => ?_⟩
  · rw [kronSum_congr (show BoxEq x.shape r.data _ from b3) i hi, ← polyApply_X, ← polyApply_mul]
    refine (pc _ (Polynomial.C 1) x.data (fun z hz' => ?_) i hi).trans (by rw [polyApply_C]; exact one_mul _)
    rw [map_mul, Polynomial.aeval_X, (hz z hz').2, Polynomial.aeval_C]
    have := (hz z hz').1
    field_simp
    simp
  · rw [b3 i hi, ← polyApply_congr p (show BoxEq x.shape _ x.data from hy) i hi, ← polyApply_X, ← polyApply_mul]
    refine Eq.symm ((pc _ (Polynomial.C 1) y (fun z hz' => ?_) i hi).trans (by rw [polyApply_C]; exact one_mul _))
    rw [map_mul, Polynomial.aeval_X, (hz z hz').2, Polynomial.aeval_C]
    have := (hz z hz').1
    field_simp
    simp

/-! ### C37: selection and checks -/

/-- **C37.** The default implementation, off TPU: `rfft` when the last axis is even, `matmul` when it is odd; on TPU `rfft` only
for sizes above 1024 with an even last axis. -/
theorem C37_default (sizes : List ℕ) (n : ℕ) (hn : sizes.getLast? = some n) :
    defaultImpl false sizes = .ok (if n % 2 = 1 then .matmul else .rfft) ∧
    defaultImpl true sizes = .ok (if (∃ m ∈ sizes, 1024 < m) ∧ n % 2 = 0 then .rfft else .matmul) := by
  constructor
  · unfold defaultImpl
    simp only [Bool.false_eq_true, if_false, hn]
  · unfold defaultImpl
    obtain ⟨m, hm⟩ : ∃ m, sizes.max? = some m := by
      cases h : sizes.max? with
      | none => rw [List.max?_eq_none_iff.1 h] at hn; simp at hn
      | some m => exact ⟨m, rfl⟩
    obtain ⟨hmem, hmax⟩ := List.max?_eq_some_iff.1 hm
    simp only [if_true, hm]
    by_cases h1 : m > 1024
    · rw [if_pos h1]
      simp only [hn]
      have hex : ∃ m ∈ sizes, 1024 < m := ⟨m, hmem, h1⟩
      by_cases h2 : n % 2 = 1
      · rw [if_pos h2, if_neg]; rintro ⟨-, h3⟩; omega
      · rw [if_neg h2, if_pos ⟨hex, by omega⟩]
    · rw [if_neg h1]
      dsimp only
      rw [if_neg]
      rintro ⟨⟨m', h3, h4⟩, -⟩
      have := hmax m' h3
      omega

/-- **C37.** Matrices that are not square are rejected whatever the other arguments. -/
theorem C37_rejects_non_square (tpu : Bool) (eigh : EighFn ℝ) (func : ℂ → ℂ) (ops : List (Mat ℝ)) (hermitian circulant : Bool)
    (impl : Option Impl) (m : Mat ℝ) (hm : m ∈ ops) (hsq : m.rows ≠ m.cols) :
    transform (d := d) tpu eigh func ops hermitian circulant impl = .error .value := by
  unfold transform
  rw [if_pos (List.any_eq_true.2 ⟨m, hm, by simpa using hsq⟩)]

/-- **C37.** For square matrices (at least one) and a requested implementation, `transform` succeeds exactly when the documented
requirement of that implementation is met and is a ValueError otherwise: `matmul` needs `hermitian=True`, `fft` needs
`circulant=True`, `rfft` needs `circulant=True` and an even last size; any other name is an error. -/
theorem C37_requirements (tpu : Bool) (eigh : EighFn ℝ) (func : ℂ → ℂ) (ops : List (Mat ℝ)) (hermitian circulant : Bool)
    (hsq : ∀ m ∈ ops, m.rows = m.cols) (n : ℕ) (hn : (ops.map Mat.rows).getLast? = some n) (impl : Impl) :
    (match impl with
      | .matmul => hermitian = true
      | .fft => circulant = true
      | .rfft => circulant = true ∧ n % 2 = 0
      | .other => False) ∧ (∃ F, transform (d := d) tpu eigh func ops hermitian circulant (some impl) = .ok F) ∨
    ¬ (match impl with
      | .matmul => hermitian = true
      | .fft => circulant = true
      | .rfft => circulant = true ∧ n % 2 = 0
      | .other => False) ∧ transform (d := d) tpu eigh func ops hermitian circulant (some impl) = .error .value := by
  have hsq' : ¬ (ops.any (fun m => decide (m.rows ≠ m.cols)) = true) := by
    intro h
    obtain ⟨m, hm, h'⟩ := List.any_eq_true.1 h
    exact (by simpa using h' : ¬ _) (hsq m hm)
  have hne : ops ≠ [] := by rintro rfl; simp at hn
  unfold transform transformWith
  rw [if_neg hsq']
  cases impl with
  | matmul => cases hermitian <;> simp [hne]
  | fft => cases circulant <;> simp [hne]
  | rfft =>
    cases circulant
    · simp
    · simp only [Bool.true_eq_false, if_false, hn, true_and]
      by_cases h : n % 2 = 1
      · right; exact ⟨by omega, if_pos h⟩
      · left; exact ⟨by omega, _, if_neg h⟩
  | other => right; exact ⟨not_false, rfl⟩

/-- **C37.** The functions returned for `matmul` and `fft` reject every array whose shape is not the tuple of matrix sizes. -/
theorem C37_rejects_shape (tpu : Bool) (eigh : EighFn ℝ) (func : ℂ → ℂ) (ops : List (Mat ℝ)) (hermitian circulant : Bool)
    (impl : Impl) (himpl : impl = .matmul ∨ impl = .fft) {F : NArr d ℝ → Except Err (NArr d ℝ)}
    (hT : transform tpu eigh func ops hermitian circulant (some impl) = .ok F)
    (x : NArr d ℝ) (hx : List.ofFn x.shape ≠ ops.map Mat.rows) : F x = .error .value := by
  have h := transform_cases hT
  unfold transform transformWith at hT
  have hsq' : ¬ (ops.any (fun m => decide (m.rows ≠ m.cols)) = true) := by
    intro h'
    obtain ⟨m, hm, h'⟩ := List.any_eq_true.1 h'
    exact (by simpa using h' : ¬ _) (h.1 m hm)
  rw [if_neg hsq'] at hT
  rcases himpl with rfl | rfl
  · by_cases hh : hermitian = false
    · simp [hh] at hT
    · simp only [hh, h.2.1, if_false] at hT
      injection hT with hT
      subst hT
      cases d with
      | zero => rfl
      | succ k => exact if_pos hx
  · by_cases hh : circulant = false
    · simp [hh] at hT
    · simp only [hh, h.2.1, if_false] at hT
      injection hT with hT
      subst hT
      exact if_pos hx

/-- **C37 (recorded defect).** The function returned for `rfft` does not check the shape: an array whose last axis is one longer
than the (even) matrix size is accepted and an array of a different shape, that of the matrices, comes back. -/
theorem C37_rfft_shape_unchecked {k : ℕ} (func : ℂ → ℂ) (ops : List (Mat ℝ)) (s : Fin (k + 1) → ℕ)
    (hs : List.ofFn s = ops.map Mat.rows) (he : s (Fin.last k) % 2 = 0) (x : NArr (k + 1) ℝ)
    (hx : x.shape = Function.update s (Fin.last k) (s (Fin.last k) + 1)) :
    ∃ r, circulantRfft func ops x = .ok r ∧ r.shape = s ∧ r.shape ≠ x.shape := by
  have hl : x.shape (Fin.last k) = s (Fin.last k) + 1 := by rw [hx, Function.update_self]
  have hshape : List.ofFn (rfftn x).shape = rfftShape (ops.map Mat.rows) := by
    rw [← hs, ofFn_snoc s, rfftShape_append, ofFn_snoc]
    unfold rfftn
    simp only [Function.update_self]
    rw [hl, show (s (Fin.last k) + 1) / 2 = s (Fin.last k) / 2 by omega]
    congr 1
    congr 1
    funext a
    rw [Function.update_of_ne (Fin.castSucc_lt_last a).ne, hx, Function.update_of_ne (Fin.castSucc_lt_last a).ne]
  have hsh : ∀ y : NArr (k + 1) ℂ, y.shape = (rfftn x).shape → (irfftn y).shape = s := by
    intro y hy
    funext a
    show (irfftLast _).shape a = _
    unfold irfftLast
    dsimp only
    rw [hy]
    by_cases ha : a = Fin.last k
    · subst ha
      rw [Function.update_self]
      show 2 * ((Function.update x.shape (Fin.last k) _) (Fin.last k) - 1) = _
      rw [Function.update_self, hl]; omega
    · rw [Function.update_of_ne ha]
      show Function.update x.shape (Fin.last k) _ a = _
      rw [Function.update_of_ne ha, hx, Function.update_of_ne ha]
  refine ⟨irfftn ⟨(rfftn x).shape, fun i => fftDiagonal func ops i * (rfftn x).data i⟩, if_neg (not_not.2 hshape),
    hsh _ (by rfl), fun h => ?_⟩
  rw [hsh _ (by rfl)] at h
  have := congrFun h (Fin.last k)
  rw [hl] at this
  omega

/-! ### Complex Hermitian matrices -/

/-- `[[9/25, -12i/25], [12i/25, 16/25]]`, a Hermitian matrix -/
noncomputable def hmA : Mat ℂ := ⟨2, 2, fun i j => if i = 0 ∧ j = 0 then 9 / 25 else if i = 0 ∧ j = 1 then -(12 * Complex.I) / 25
      else if i = 1 ∧ j = 0 then 12 * Complex.I / 25 else if i = 1 ∧ j = 1 then 16 / 25 else 0⟩

/-- its eigenvalues `1, 0` and eigenvectors `(3/5, 4i/5)`, `(4i/5, 3/5)` -/
noncomputable def hmR : (ℤ → ℂ) × Mat ℂ :=
  ⟨fun k => if k = 0 then 1 else 0, ⟨2, 2, fun i j => if i = j then 3 / 5 else 4 * Complex.I / 5⟩⟩

/-- the vector `(0, 1)` -/
noncomputable def hmX : NArr 1 ℂ := ⟨fun _ => 2, fun i => if i 0 = 1 then 1 else 0⟩

/-- **C35 (recorded defect).** For complex Hermitian matrices, which `hermitian=True` documents as sufficient, the `matmul`
implementation is wrong: the eigenvector matrix is transposed but not conjugated, so even `func = identity` does not give back
the operator, although the eigendecomposition is exact. -/
theorem C35_complex_hermitian_defect :
    (∀ i j : ℤ, hmA.e i j = (starRingEnd ℂ) (hmA.e j i)) ∧
    (∀ k l : ℤ, 0 ≤ k → k < 2 → 0 ≤ l → l < 2 →
      ∑ j ∈ Finset.Ico (0 : ℤ) 2, (starRingEnd ℂ) (hmR.2.e j k) * hmR.2.e j l = if k = l then 1 else 0) ∧
    (∀ i k : ℤ, 0 ≤ i → i < 2 → 0 ≤ k → k < 2 →
      ∑ j ∈ Finset.Ico (0 : ℤ) 2, hmA.e i j * hmR.2.e j k = hmR.1 k * hmR.2.e i k) ∧
    ∃ y : NArr 1 ℂ, hermitianMatmul (fun _ => hmR) (fun z => z) [hmA] hmX = .ok y ∧
      y.data (fun _ => 0) ≠ ∑ j ∈ Finset.Ico (0 : ℤ) 2, hmA.e 0 j * hmX.data (fun _ => j) := by
  have h2 : Finset.Ico (0 : ℤ) 2 = {0, 1} := by decide
  have h2' : Finset.Ico (0 : ℤ) ((2 : ℕ) : ℤ) = {0, 1} := by decide
  have hs : List.ofFn hmX.shape = [hmA].map Mat.rows := by simp [hmX, hmA]
  have hr : hermitianMatmul (fun _ => hmR) (fun z => z) [hmA] hmX = .ok (matmulLoops ([hmA].map fun _ => hmR.2)
      (fun i => ∑ a, hmR.1 (i a)) hmX) :=
    if_neg (t := Except.error Err.value) (not_not.2 hs)
  refine ⟨?_, ?_, ?_, _, hr, ?_⟩
  · intro i j
    by_cases h1 : i = 0 <;> by_cases h3 : i = 1 <;> by_cases h4 : j = 0 <;> by_cases h5 : j = 1 <;>
      simp [hmA, h1, h3, h4, h5, map_div₀, Complex.conj_I, map_ofNat] <;> omega
  · intro k l k1 k2 l1 l2
    have hk : k = 0 ∨ k = 1 := by omega
    have hl : l = 0 ∨ l = 1 := by omega
    rw [h2]
    rcases hk with rfl | rfl <;> rcases hl with rfl | rfl <;> simp [Complex.ext_iff, hmR, map_ofNat] <;> norm_num
  · intro i k k1 k2 l1 l2
    have hk : k = 0 ∨ k = 1 := by omega
    have hi : i = 0 ∨ i = 1 := by omega
    rw [h2]
    rcases hk with rfl | rfl <;> rcases hi with rfl | rfl <;> simp [Complex.ext_iff, hmA, hmR] <;> norm_num
  · rw [h2]
    simp only [matmulLoops, List.map, List.foldl, tensordot, hmA, hmR, hmX, h2']
    simp [Complex.ext_iff, opAt, Finset.filter_singleton]
    norm_num

end JaxCfd
