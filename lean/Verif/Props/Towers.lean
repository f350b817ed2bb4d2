import Verif.Model.Towers
import Verif.Props.PeriodicConv
import Verif.Lemmas.Parseval
import Mathlib.Data.Int.ModEq

/-!
# C67: towers
-/

namespace JaxCfd
variable {d : ℕ} {K : Type}

/-- A network is translation equivariant with scales `m` and `n`: an input translated by `m * t` gives the output translated by `n * t` — provided every
axis is divisible by `m` — and the output has `n/m` times as many points along every axis.  `m > 1` for strided (downsampling) and `n > 1` for transposed
(upsampling) convolutions; failing is not changed by translations either. -/
def Equivariant (m n : ℕ) (F : Net d) : Prop :=
  ∀ (x y : Chan d ℝ) (t : Idx d), (∀ a, 0 < x.shape a ∧ m ∣ x.shape a) → y.Eqv (x.translate fun a => m * t a) →
    (∀ e, F x = .error e → F y = .error e) ∧
    ∀ r, F x = .ok r → ∃ r', F y = .ok r' ∧ (∀ a, r.shape a * m = x.shape a * n) ∧ r'.Eqv (r.translate fun a => n * t a)

/-- The output at a point depends only on the inputs from `L` points before to `R` points after it, periodically; the spatial shape does not change. -/
def DependsWithin (L R : Fin d → ℕ) (F : Net d) : Prop :=
  ∀ x y : Chan d ℝ, y.shape = x.shape → y.chan = x.chan → (∀ a, 0 < x.shape a) →
    (∀ e, F x = .error e → F y = .error e) ∧
    ∀ r, F x = .ok r → ∃ r', F y = .ok r' ∧ r.shape = x.shape ∧ r'.shape = r.shape ∧ r'.chan = r.chan ∧
      ∀ i : Idx d, InR x.shape i →
        (∀ (j : Idx d) (c : ℤ), (∀ a, -(L a : ℤ) ≤ j a ∧ j a ≤ R a) → 0 ≤ c → c < x.chan → y.per (fun a => i a + j a) c = x.per (fun a => i a + j a) c) →
        ∀ c : ℤ, 0 ≤ c → c < r.chan → r'.data i c = r.data i c

theorem Chan.per_mod (x : Chan d K) (i : Idx d) (j : Idx d) (c : ℤ) : x.per (fun a => i a % (x.shape a : ℤ) + j a) c = x.per (fun a => i a + j a) c := by
  unfold Chan.per
  congr 1
  funext a
  rw [Int.emod_add_emod]

theorem Chan.per_of_inR (x : Chan d K) {i : Idx d} (hi : InR x.shape i) (c : ℤ) : x.per i c = x.data i c := by
  unfold Chan.per
  congr 1
  funext a
  exact Int.emod_eq_of_lt (hi a).1 (hi a).2

theorem Chan.mod_inR (s : Fin d → ℕ) (hs : ∀ a, 0 < s a) (i : Idx d) : InR s fun a => i a % (s a : ℤ) :=
  fun a => ⟨Int.emod_nonneg _ (by have := hs a; omega), Int.emod_lt_of_pos _ (by have := hs a; omega)⟩

/-- Equal arrays have equal periodic continuations. -/
theorem Chan.Eqv.per {x y : Chan d K} (h : x.Eqv y) (hs : ∀ a, 0 < x.shape a) (i : Idx d) (c : ℤ) (c0 : 0 ≤ c) (c1 : c < x.chan) : x.per i c = y.per i c := by
  unfold Chan.per
  rw [h.2.2 _ _ (Chan.mod_inR _ hs i) c0 c1, h.1]

theorem Chan.per_translate (x : Chan d K) (t : Idx d) (i : Idx d) (c : ℤ) : (x.translate t).per i c = x.per (fun a => i a + t a) c := by
  unfold Chan.translate
  exact x.per_mod i t c

theorem Chan.Eqv.refl (x : Chan d K) : x.Eqv x := ⟨rfl, rfl, fun _ _ _ _ _ => rfl⟩

theorem Chan.Eqv.trans {x y z : Chan d K} (h : x.Eqv y) (h' : y.Eqv z) : x.Eqv z :=
  ⟨h.1.trans h'.1, h.2.1.trans h'.2.1, fun i c hi c0 c1 => (h.2.2 i c hi c0 c1).trans (h'.2.2 i c (h.1 ▸ hi) c0 (h.2.1 ▸ c1))⟩

/-! ## Composition -/

theorem Equivariant.comp {m₁ n₁ m₂ n₂ : ℕ} {F G : Net d} (hm : 0 < m₁) (hn : 0 < n₁) (hF : Equivariant m₁ n₁ F) (hG : Equivariant m₂ n₂ G) :
    Equivariant (m₁ * m₂) (n₁ * n₂) fun x => F x >>= G := by
  intro x y t hx hy
  have ht : (fun a => ((m₁ * m₂ : ℕ) : ℤ) * t a) = fun a => (m₁ : ℤ) * ((m₂ : ℤ) * t a) := by
    funext a
    push_cast
    ring
  rw [ht] at hy
  obtain ⟨he, ho⟩ := hF x y (fun a => (m₂ : ℤ) * t a) (fun a => ⟨(hx a).1, dvd_trans (dvd_mul_right _ _) (hx a).2⟩) hy
  beta_reduce
  cases hfx : F x with
  | error e =>
      refine ⟨fun e' h => ?_, fun r h => ?_⟩
      · rw [he e hfx]
        exact h
      · exact absurd (show (Except.error e : Except Err (Chan d ℝ)) = .ok r from h) (by simp)
  | ok u =>
      obtain ⟨u', hu', us, hu⟩ := ho u hfx
      have hu2 : u'.Eqv (u.translate fun a => (m₂ : ℤ) * ((n₁ : ℤ) * t a)) := by
        have : (fun a => (m₂ : ℤ) * ((n₁ : ℤ) * t a)) = fun a => (n₁ : ℤ) * ((m₂ : ℤ) * t a) := by
          funext a
          ring
        rw [this]
        exact hu
      obtain ⟨he2, ho2⟩ := hG u u' (fun a => (n₁ : ℤ) * t a) (fun a => by
        obtain ⟨h0, q, hq⟩ := hx a
        have h1 := us a
        constructor
        · rcases Nat.eq_zero_or_pos (u.shape a) with h | h
          · rw [h, zero_mul] at h1
            exact absurd h1.symm (Nat.mul_pos h0 hn).ne'
          · exact h
        · refine ⟨q * n₁, Nat.eq_of_mul_eq_mul_right hm ?_⟩
          rw [h1, hq]
          ring) hu2
      refine ⟨fun e' h => ?_, fun r h => ?_⟩
      · rw [hu']
        exact he2 e' h
      · obtain ⟨r', hr', rs, hr⟩ := ho2 r h
        refine ⟨r', by rw [hu']; exact hr', fun a => ?_, ?_⟩
        · have h1 := us a
          have h2 := rs a
          calc r.shape a * (m₁ * m₂) = (r.shape a * m₂) * m₁ := by ring
            _ = (u.shape a * m₁) * n₂ := by rw [h2]; ring
            _ = x.shape a * (n₁ * n₂) := by rw [h1]; ring
        · have : (fun a => ((n₁ * n₂ : ℕ) : ℤ) * t a) = fun a => (n₂ : ℤ) * ((n₁ : ℤ) * t a) := by
            funext a
            push_cast
            ring
          rw [this]
          exact hr

theorem DependsWithin.comp {L₁ R₁ L₂ R₂ : Fin d → ℕ} {F G : Net d} (hF : DependsWithin L₁ R₁ F) (hG : DependsWithin L₂ R₂ G) :
    DependsWithin (fun a => L₁ a + L₂ a) (fun a => R₁ a + R₂ a) fun x => F x >>= G := by
  intro x y hs hc hx
  obtain ⟨he, ho⟩ := hF x y hs hc hx
  beta_reduce
  cases hfx : F x with
  | error e =>
      refine ⟨fun e' h => ?_, fun r h => ?_⟩
      · rw [he e hfx]
        exact h
      · exact absurd (show (Except.error e : Except Err (Chan d ℝ)) = .ok r from h) (by simp)
  | ok u =>
      obtain ⟨u', hu', us, us', uc, ud⟩ := ho u hfx
      obtain ⟨he2, ho2⟩ := hG u u' us' uc (by rw [us]; exact hx)
      refine ⟨fun e' h => ?_, fun r h => ?_⟩
      · rw [hu']
        exact he2 e' h
      · obtain ⟨r', hr', rs, rs', rc, rd⟩ := ho2 r h
        refine ⟨r', by rw [hu']; exact hr', rs.trans us, rs', rc, ?_⟩
        intro i hi hxy c c0 c1
        refine rd i (by rw [us]; exact hi) ?_ c c0 c1
        intro j k hj k0 k1
        unfold Chan.per
        rw [us', us]
        refine ud _ (Chan.mod_inR _ hx _) ?_ k k0 k1
        intro j' k' hj' k0' k1'
        have e1 := y.per_mod (fun a => i a + j a) j' k'
        have e2 := x.per_mod (fun a => i a + j a) j' k'
        rw [hs] at e1
        rw [e1, e2]
        have e3 : (fun a => i a + j a + j' a) = fun a => i a + (j a + j' a) := by
          funext a
          ring
        rw [e3]
        refine hxy _ _ (fun a => ?_) k0' k1'
        have h1 := hj a
        have h2 := hj' a
        push_cast
        constructor <;> omega

theorem DependsWithin.mono {L R L' R' : Fin d → ℕ} {F : Net d} (h : DependsWithin L R F) (hL : ∀ a, L a ≤ L' a) (hR : ∀ a, R a ≤ R' a) : DependsWithin L' R' F := by
  intro x y hs hc hx
  obtain ⟨he, ho⟩ := h x y hs hc hx
  refine ⟨he, fun r hr => ?_⟩
  obtain ⟨r', h1, h2, h3, h4, h5⟩ := ho r hr
  refine ⟨r', h1, h2, h3, h4, fun i hi hxy => h5 i hi fun j c hj => hxy j c fun a => ?_⟩
  have := hL a
  have := hR a
  have := hj a
  constructor <;> omega

theorem equivariant_ok : Equivariant (d := d) 1 1 fun x => .ok x := by
  intro x y t _ hy
  refine ⟨(fun e h => nomatch h), fun r h => ⟨y, rfl, ?_, ?_⟩⟩ <;> cases h
  · exact fun a => rfl
  · exact hy

theorem dependsWithin_ok : DependsWithin (d := d) (fun _ => 0) (fun _ => 0) fun x => .ok x := by
  intro x y hs hc hx
  refine ⟨(fun e h => nomatch h), fun r h => ?_⟩
  cases h
  refine ⟨y, rfl, rfl, hs, hc, fun i hi hxy c c0 c1 => ?_⟩
  have := hxy (fun _ => 0) c (fun a => ⟨by simp, by simp⟩) c0 c1
  simp only [add_zero] at this
  rwa [x.per_of_inR hi, y.per_of_inR (by rw [hs]; exact hi)] at this

/-- A function of the channels at one point. -/
theorem equivariant_pointwise (cout : ℕ → ℕ) (f : ℕ → (ℤ → ℝ) → ℤ → ℝ) (hf : ∀ (n : ℕ) (u v : ℤ → ℝ), (∀ c : ℤ, 0 ≤ c → c < n → u c = v c) → ∀ c : ℤ, 0 ≤ c → c < cout n → f n u c = f n v c) :
    Equivariant (d := d) 1 1 (fun x => .ok { shape := x.shape, chan := cout x.chan, data := fun i c => f x.chan (fun c => x.data i c) c }) ∧
    DependsWithin (d := d) (fun _ => 0) (fun _ => 0) (fun x => .ok { shape := x.shape, chan := cout x.chan, data := fun i c => f x.chan (fun c => x.data i c) c }) := by
  constructor
  · intro x y t hx hy
    refine ⟨(fun e h => nomatch h), fun r h => ⟨_, rfl, ?_, ?_⟩⟩ <;> cases h
    · exact fun a => rfl
    · refine ⟨hy.1, ?_, ?_⟩
      · show cout y.chan = cout x.chan
        rw [hy.2.1]
        rfl
      · intro i c hi c0 c1
        have hc : y.chan = x.chan := hy.2.1
        simp only [hc] at c1
        show f y.chan (fun c => y.data i c) c = f x.chan (fun c => x.data (fun a => (i a + ((1 : ℕ) : ℤ) * t a) % (x.shape a : ℤ)) c) c
        rw [hc]
        refine hf _ _ _ (fun k k0 k1 => ?_) c c0 c1
        exact hy.2.2 i k hi k0 (by rw [hc]; exact k1)
  · intro x y hs hc hx
    refine ⟨(fun e h => nomatch h), fun r h => ?_⟩
    cases h
    refine ⟨_, rfl, rfl, hs, by rw [hc], fun i hi hxy c c0 c1 => ?_⟩
    dsimp only
    rw [hc]
    refine hf _ _ _ (fun k k0 k1 => ?_) c c0 c1
    have := hxy (fun _ => 0) k (fun a => ⟨by simp, by simp⟩) k0 k1
    simp only [add_zero] at this
    rwa [x.per_of_inR hi, y.per_of_inR (by rw [hs]; exact hi)] at this

/-! ## Convolutions -/

theorem applyConvolution_every (hd : tileRank d = true) (conv : Tiled d K → Except Err (Tiled d K)) (x : Chan d K) (pad : Fin d → ℕ × ℕ) (s : ℕ) (hs : 0 < s) :
    (∀ e, applyConvolution conv x none pad = .error e → applyConvolution (fun y => (conv y).map (Tiled.every s)) x none pad = .error e) ∧
    ∀ z, applyConvolution conv x none pad = .ok z →
      ∃ r : Chan d K, applyConvolution (fun y => (conv y).map (Tiled.every s)) x none pad = .ok r ∧ (∀ a, r.shape a = (z.shape a + (s - 1)) / s) ∧ r.chan = z.chan ∧
        ∀ (i : Idx d) (c : ℤ), InR r.shape i → r.data i c = z.data (fun a => s * i a) c := by
  unfold applyConvolution
  dsimp only
  cases spaceToBatch x ((none : Option (Fin d → ℕ)).getD fun _ => 1) with
  | error e => exact ⟨(fun e' h => h), (fun z h => nomatch h)⟩
  | ok y =>
    simp only [Except.bind_ok]
    cases haloExchangePad y ((none : Option (Fin d → ℕ)).getD fun _ => 1) pad with
    | error e => exact ⟨(fun e' h => h), (fun z h => nomatch h)⟩
    | ok y =>
      simp only [Except.bind_ok]
      cases conv y with
      | error e => exact ⟨(fun e' h => h), (fun z h => nomatch h)⟩
      | ok y =>
        simp only [Except.map, Except.bind_ok]
        by_cases hb : y.batch = layoutSize fun _ : Fin d => 1
        · have e1 := batchToSpace_ok (y := y) (L := fun _ => 1) hd hb
          have e2 := batchToSpace_ok (y := y.every s) (L := fun _ => 1) hd hb
          simp only [Option.getD_none, e1, e2]
          refine ⟨(fun e h => nomatch h), fun z h => ⟨_, rfl, ?_, ?_, ?_⟩⟩ <;> cases h
          · intro a
            simp only [Tiled.every, one_mul]
          · rfl
          · intro i c hi
            dsimp only [Tiled.every] at hi ⊢
            have hlt : ∀ a, 0 ≤ i a ∧ i a < ((y.shape a + (s - 1)) / s : ℕ) ∧ (s : ℤ) * i a < y.shape a := by
              intro a
              have h := hi a
              beta_reduce at h
              rw [one_mul] at h
              refine ⟨h.1, h.2, ?_⟩
              obtain ⟨k, hk⟩ := Int.eq_ofNat_of_zero_le h.1
              rw [hk] at h ⊢
              have h2 : k < (y.shape a + (s - 1)) / s := by exact_mod_cast h.2
              have h3 := (Nat.lt_div_iff_mul_lt hs).1 h2
              have h4 : s * k < y.shape a := by
                rw [mul_comm]
                omega
              exact_mod_cast h4
            have t1 : (fun a => i a / (((y.shape a + (s - 1)) / s : ℕ) : ℤ)) = fun _ => 0 := by
              funext a
              exact Int.ediv_eq_zero_of_lt (hlt a).1 (hlt a).2.1
            have t2 : (fun a => (s : ℤ) * i a / (y.shape a : ℤ)) = fun _ => 0 := by
              funext a
              exact Int.ediv_eq_zero_of_lt (mul_nonneg (by omega) (hlt a).1) (hlt a).2.2
            have t3 : (fun a => (s : ℤ) * (i a % (((y.shape a + (s - 1)) / s : ℕ) : ℤ))) = fun a => (s : ℤ) * i a % (y.shape a : ℤ) := by
              funext a
              rw [Int.emod_eq_of_lt (hlt a).1 (hlt a).2.1, Int.emod_eq_of_lt (mul_nonneg (by omega) (hlt a).1) (hlt a).2.2]
            rw [t1, t2, t3]
        · have e1 : batchToSpace y (fun _ : Fin d => 1) = .error .runtime := by
            unfold batchToSpace
            rw [if_neg (by simp [hd]), if_pos hb]
          have e2 : batchToSpace (y.every s) (fun _ : Fin d => 1) = .error .runtime := by
            unfold batchToSpace
            rw [if_neg (by simp [hd]), if_pos (by exact hb)]
          simp only [Option.getD_none, e1, e2]
          exact ⟨(fun e h => h), (fun z h => nomatch h)⟩

/-- The left reach `⌈(k-1) rate / 2⌉` of a kernel. -/
def reachLeft (k rate : ℕ) : ℕ := ((k - 1) * rate + 1) / 2

/-- The right reach `⌊(k-1) rate / 2⌋` of a kernel. -/
def reachRight (k rate : ℕ) : ℕ := (k - 1) * rate / 2

/-- **C67.** A strided periodic convolution: inputs smaller than the reach of the kernel are refused (TypeError), and otherwise output `i` is the kernel applied to the
window of the periodic input around `stride * i`; an axis with `n` points becomes one with `⌈n / stride⌉` points. -/
theorem C67_strided_conv (hd : d = 1 ∨ d = 2 ∨ d = 3) (p : ConvParams d) (cout : ℕ) (k : Fin d → ℕ) (hk : ∀ a, 0 < k a) (rate stride : ℕ) (hr : 0 < rate) (hs : 0 < stride)
    (x : Chan d ℝ) (hx : ∀ a, 0 < x.shape a) :
    ((∃ a, x.shape a < reachLeft (k a) rate) → periodicConvModule p cout k rate stride x = .error .type) ∧
    ((∀ a, reachLeft (k a) rate ≤ x.shape a) → ∃ r : Chan d ℝ, periodicConvModule p cout k rate stride x = .ok r ∧
      (∀ a, r.shape a = (x.shape a + (stride - 1)) / stride) ∧ r.chan = cout ∧
      ∀ (i : Idx d) (co : ℤ), InR r.shape i → 0 ≤ co → co < cout →
        r.data i co = (∑ o ∈ Fintype.piFinset fun a => Finset.range (k a), ∑ ci ∈ Finset.range x.chan,
          x.per (fun a => stride * i a + rate * (o a : ℕ) - reachLeft (k a) rate) ci * p.w (fun a => (o a : ℤ)) ci co) + p.b co) := by
  have hd' : tileRank d = true := by rcases hd with rfl | rfl | rfl <;> rfl
  have hp := fun a => periodicConvPadding_sum (hk a) hr
  have hcv : hkConvStrided k x.chan cout p.w p.b rate stride = fun y => (hkConv k x.chan cout p.w p.b rate y).map (Tiled.every stride) := by
    funext y
    unfold hkConvStrided
    rw [if_neg hs.ne']
  have hrun : periodicConvModule p cout k rate stride x =
      applyConvolution (fun y => (hkConv k x.chan cout p.w p.b rate y).map (Tiled.every stride)) x none fun a => periodicConvPadding (k a) rate := by
    unfold periodicConvModule periodicConvStrided
    rw [if_neg (by simp [hd']), hcv]
  rw [hrun]
  obtain ⟨he, ho⟩ := applyConvolution_every hd' (hkConv k x.chan cout p.w p.b rate) x (fun a => periodicConvPadding (k a) rate) stride hs
  constructor
  · rintro ⟨a, ha⟩
    refine he _ ?_
    unfold applyConvolution
    simp only [Option.getD_none]
    rw [spaceToBatch_ok hd' (fun _ => Nat.one_pos) (fun _ => one_dvd _)]
    simp only [bind, Except.bind, Nat.div_one]
    rw [haloExchangePad_wide hd' (by rfl) (fun _ => Nat.one_pos) _ (by exact hx) ⟨a, Or.inl (by rw [(hp a).1]; exact ha)⟩]
  · intro hle
    obtain ⟨z, hz, zs, zc, zd⟩ := C50_periodic_conv hd k hk cout p.w p.b rate hr x hx (fun _ => 1) (fun _ => Nat.one_pos) (fun _ => one_dvd _)
      (fun a => by rw [Nat.div_one]; exact hle a)
    have hz' : applyConvolution (hkConv k x.chan cout p.w p.b rate) x none (fun a => periodicConvPadding (k a) rate) = .ok z := hz
    obtain ⟨r, hr', rs, rc, rd⟩ := ho z hz'
    refine ⟨r, hr', fun a => by rw [rs a, zs], rc.trans zc, ?_⟩
    intro i co hi c0 c1
    have hin : InR x.shape fun a => (stride : ℤ) * i a := by
      intro a
      have h := hi a
      rw [rs a, zs] at h
      refine ⟨mul_nonneg (by omega) h.1, ?_⟩
      beta_reduce
      obtain ⟨q, hq⟩ := Int.eq_ofNat_of_zero_le h.1
      rw [hq] at h ⊢
      have h2 : q < (x.shape a + (stride - 1)) / stride := by exact_mod_cast h.2
      have h3 := (Nat.lt_div_iff_mul_lt hs).1 h2
      have h4 : stride * q < x.shape a := by
        rw [mul_comm]
        omega
      exact_mod_cast h4
    rw [rd i co hi, zd _ co hin c0 c1]
    rfl


/-- Strided periodic convolutions commute with translations by multiples of the stride along axes it divides. -/
theorem conv_equivariant (p : ConvParams d) (cout : ℕ) (k : Fin d → ℕ) (hk : ∀ a, 0 < k a) (rate stride : ℕ) (hr : 0 < rate) (hs : 0 < stride) :
    Equivariant stride 1 (periodicConvModule p cout k rate stride) := by
  intro x y t hx hy
  by_cases hd' : tileRank d = true
  swap
  · have : ∀ z, periodicConvModule p cout k rate stride z = .error .key := by
      intro z
      unfold periodicConvModule
      rw [if_pos (by simpa using hd')]
    rw [this, this]
    exact ⟨(fun e h => h), (fun r h => nomatch h)⟩
  have hd : d = 1 ∨ d = 2 ∨ d = 3 := by simpa [tileRank, or_assoc] using hd'
  have ys : y.shape = x.shape := hy.1
  have yc : y.chan = x.chan := hy.2.1
  obtain ⟨hex, hox⟩ := C67_strided_conv hd p cout k hk rate stride hr hs x fun a => (hx a).1
  obtain ⟨hey, hoy⟩ := C67_strided_conv hd p cout k hk rate stride hr hs y fun a => by rw [ys]; exact (hx a).1
  by_cases hw : ∃ a, x.shape a < reachLeft (k a) rate
  · rw [hex hw, hey (by rw [ys]; exact hw)]
    exact ⟨(fun e h => h), (fun r h => nomatch h)⟩
  · push Not at hw
    obtain ⟨r, e1, rs, rc, rd⟩ := hox hw
    obtain ⟨r', e2, rs', rc', rd'⟩ := hoy (by rw [ys]; exact hw)
    rw [e1, e2]
    refine ⟨(fun e h => nomatch h), fun u h => ⟨r', rfl, ?_, ?_⟩⟩ <;> cases h
    · intro a
      obtain ⟨q, hq⟩ := (hx a).2
      rw [rs a, hq]
      have : (stride * q + (stride - 1)) / stride = q := by
        rw [Nat.mul_add_div hs, Nat.div_eq_of_lt (by omega), add_zero]
      rw [this]
      ring
    · have hrs : ∀ a, r.shape a * stride = x.shape a := by
        intro a
        obtain ⟨q, hq⟩ := (hx a).2
        rw [rs a, hq]
        have : (stride * q + (stride - 1)) / stride = q := by
          rw [Nat.mul_add_div hs, Nat.div_eq_of_lt (by omega), add_zero]
        rw [this]
        ring
      have hrp : ∀ a, 0 < r.shape a := by
        intro a
        rcases Nat.eq_zero_or_pos (r.shape a) with h | h
        · have := hrs a
          rw [h, zero_mul] at this
          exact absurd this.symm (hx a).1.ne'
        · exact h
      refine ⟨funext fun a => by rw [rs', ys]; exact (rs a).symm, rc'.trans rc.symm, ?_⟩
      intro i c hi c0 c1
      rw [rc'] at c1
      have hi' : InR r.shape i := fun a => by
        have := hi a
        rw [rs', ys, ← rs a] at this
        exact this
      rw [rd' i c hi c0 c1]
      show _ = r.data (fun a => (i a + ((1 : ℕ) : ℤ) * t a) % (r.shape a : ℤ)) c
      rw [rd _ c (Chan.mod_inR _ hrp _) c0 c1, yc]
      congr 1
      refine Finset.sum_congr rfl fun o _ => Finset.sum_congr rfl fun ci hci => ?_
      congr 1
      rw [hy.per (by rw [ys]; exact fun a => (hx a).1) _ _ (Int.natCast_nonneg _) (by rw [yc]; exact_mod_cast Finset.mem_range.1 hci), Chan.per_translate]
      unfold Chan.per
      congr 1
      funext a
      have hn : ((x.shape a : ℕ) : ℤ) = (r.shape a : ℤ) * stride := by exact_mod_cast (hrs a).symm
      have hm : (i a + ((1 : ℕ) : ℤ) * t a) % (r.shape a : ℤ) = i a + t a - (r.shape a : ℤ) * ((i a + t a) / (r.shape a : ℤ)) := by
        rw [Int.emod_def]
        push_cast
        rw [one_mul]
      beta_reduce
      rw [hm, hn]
      refine Int.modEq_iff_dvd.2 ⟨-((i a + t a) / (r.shape a : ℤ)), ?_⟩
      ring

theorem transpose_equivariant (p : ConvParams d) (cout : ℕ) (k : Fin d → ℕ) (hk : ∀ a, 0 < k a) (rate stride : ℕ) (hs : 0 < stride) :
    Equivariant 1 stride (periodicTransposeConvolution p cout k rate stride) := by
  intro x y t hx hy
  by_cases hrate : rate = 1
  swap
  · have : ∀ z, periodicTransposeConvolution p cout k rate stride z = .error .value := fun z => if_pos hrate
    rw [this, this]
    exact ⟨(fun e h => h), (fun r h => nomatch h)⟩
  by_cases hd' : tileRank d = true
  swap
  · have : ∀ z, periodicTransposeConvolution p cout k rate stride z = .error .key := by
      intro z
      unfold periodicTransposeConvolution
      rw [if_neg (by simpa using hrate), if_pos (by simpa using hd')]
    rw [this, this]
    exact ⟨(fun e h => h), (fun r h => nomatch h)⟩
  have hd : d = 1 ∨ d = 2 ∨ d = 3 := by simpa [tileRank, or_assoc] using hd'
  have ys : y.shape = x.shape := hy.1
  have yc : y.chan = x.chan := hy.2.1
  have hrun : ∀ z, periodicTransposeConvolution p cout k rate stride z = periodicConvTranspose k z.chan cout p.w p.b stride none z := by
    intro z
    unfold periodicTransposeConvolution
    rw [if_neg (by simpa using hrate), if_neg (by simp [hd'])]
  rw [hrun, hrun]
  by_cases hw : ∃ a, x.shape a < k a / stride + 1
  · rw [(C50_conv_transpose_rejects hd k cout p.w p.b stride x).2 (fun a => (hx a).1) hw,
      (C50_conv_transpose_rejects hd k cout p.w p.b stride y).2 (fun a => by rw [ys]; exact (hx a).1) (by rw [ys]; exact hw)]
    exact ⟨(fun e h => h), (fun r h => nomatch h)⟩
  · push Not at hw
    obtain ⟨r, e1, rs, rc, rd⟩ := C50_periodic_conv_transpose hd k hk cout p.w p.b stride hs x hw
    obtain ⟨r', e2, rs', rc', rd'⟩ := C50_periodic_conv_transpose hd k hk cout p.w p.b stride hs y (by rw [ys]; exact hw)
    rw [e1, e2]
    refine ⟨(fun e h => nomatch h), fun u h => ⟨r', rfl, ?_, ?_⟩⟩ <;> cases h
    · intro a
      rw [rs a]
      ring
    · have hrp : ∀ a, 0 < r.shape a := fun a => by
        rw [rs a]
        exact Nat.mul_pos hs (hx a).1
      refine ⟨funext fun a => by rw [rs', ys]; exact (rs a).symm, rc'.trans rc.symm, ?_⟩
      intro i c hi c0 c1
      rw [rc'] at c1
      rw [rd' i c hi c0 c1]
      show _ = r.data (fun a => (i a + (stride : ℤ) * t a) % (r.shape a : ℤ)) c
      rw [rd _ c (Chan.mod_inR _ hrp _) c0 c1, yc]
      congr 1
      refine Finset.sum_congr rfl fun o _ => Finset.sum_congr rfl fun ci hci => ?_
      congr 1
      have hs' : (stride : ℤ) ≠ 0 := by omega
      have hm : ∀ a, (i a + (stride : ℤ) * t a) % (r.shape a : ℤ) = i a + (stride : ℤ) * (t a - x.shape a * ((i a + (stride : ℤ) * t a) / (r.shape a : ℤ))) := by
        intro a
        rw [Int.emod_def, rs a]
        push_cast
        ring
      have hdv : ∀ a, ((stride : ℤ) ∣ (i a + (stride : ℤ) * t a) % (r.shape a : ℤ) + (o a : ℕ) - (k a / 2 : ℕ)) ↔ (stride : ℤ) ∣ i a + (o a : ℕ) - (k a / 2 : ℕ) := by
        intro a
        rw [hm a]
        have : i a + (stride : ℤ) * (t a - x.shape a * ((i a + (stride : ℤ) * t a) / (r.shape a : ℤ))) + (o a : ℕ) - (k a / 2 : ℕ) =
            (stride : ℤ) * (t a - x.shape a * ((i a + (stride : ℤ) * t a) / (r.shape a : ℤ))) + (i a + (o a : ℕ) - (k a / 2 : ℕ)) := by ring
        rw [this]
        exact dvd_add_right (dvd_mul_right _ _)
      simp only [hdv]
      split_ifs with hall
      swap
      · rfl
      rw [hy.per (by rw [ys]; exact fun a => (hx a).1) _ _ (Int.natCast_nonneg _) (by rw [yc]; exact_mod_cast Finset.mem_range.1 hci), Chan.per_translate]
      unfold Chan.per
      congr 1
      funext a
      beta_reduce
      have e3 : (i a + (stride : ℤ) * t a) % (r.shape a : ℤ) + (o a : ℕ) - (k a / 2 : ℕ) =
          (i a + (o a : ℕ) - (k a / 2 : ℕ)) + (stride : ℤ) * (t a - x.shape a * ((i a + (stride : ℤ) * t a) / (r.shape a : ℤ))) := by
        rw [hm a]
        ring
      rw [e3, Int.add_mul_ediv_left _ _ hs']
      refine Int.modEq_iff_dvd.2 ⟨-((i a + (stride : ℤ) * t a) / (r.shape a : ℤ)), ?_⟩
      push_cast
      ring

theorem conv_dependsWithin (p : ConvParams d) (cout : ℕ) (k : Fin d → ℕ) (hk : ∀ a, 0 < k a) (rate : ℕ) (hr : 0 < rate) :
    DependsWithin (fun a => reachLeft (k a) rate) (fun a => reachRight (k a) rate) (periodicConvModule p cout k rate 1) := by
  intro x y hs hc hx
  by_cases hd' : tileRank d = true
  swap
  · have : ∀ z, periodicConvModule p cout k rate 1 z = .error .key := by
      intro z
      unfold periodicConvModule
      rw [if_pos (by simpa using hd')]
    rw [this, this]
    exact ⟨(fun e h => h), (fun r h => nomatch h)⟩
  have hd : d = 1 ∨ d = 2 ∨ d = 3 := by simpa [tileRank, or_assoc] using hd'
  obtain ⟨hex, hox⟩ := C67_strided_conv hd p cout k hk rate 1 hr one_pos x hx
  obtain ⟨hey, hoy⟩ := C67_strided_conv hd p cout k hk rate 1 hr one_pos y fun a => by rw [hs]; exact hx a
  by_cases hw : ∃ a, x.shape a < reachLeft (k a) rate
  · rw [hex hw, hey (by rw [hs]; exact hw)]
    exact ⟨(fun e h => h), (fun r h => nomatch h)⟩
  · push Not at hw
    obtain ⟨r, e1, rs, rc, rd⟩ := hox hw
    obtain ⟨r', e2, rs', rc', rd'⟩ := hoy (by rw [hs]; exact hw)
    have rs1 : r.shape = x.shape := funext fun a => by rw [rs a]; simp
    have rs2 : r'.shape = x.shape := funext fun a => by rw [rs' a, hs]; simp
    rw [e1, e2]
    refine ⟨(fun e h => nomatch h), fun u h => ?_⟩
    cases h
    refine ⟨r', rfl, rs1, rs2.trans rs1.symm, rc'.trans rc.symm, fun i hi hxy c c0 c1 => ?_⟩
    rw [rc] at c1
    rw [rd' i c (by rw [rs2]; exact hi) c0 c1, rd i c (by rw [rs1]; exact hi) c0 c1, hc]
    congr 1
    refine Finset.sum_congr rfl fun o ho => Finset.sum_congr rfl fun ci hci => ?_
    congr 1
    have e : (fun a => ((1 : ℕ) : ℤ) * i a + (rate : ℤ) * (o a : ℕ) - (reachLeft (k a) rate : ℕ)) =
        fun a => i a + ((rate : ℤ) * (o a : ℕ) - (reachLeft (k a) rate : ℕ)) := by
      funext a
      push_cast
      ring
    rw [e]
    refine hxy _ _ (fun a => ?_) (Int.natCast_nonneg _) (by exact_mod_cast Finset.mem_range.1 hci)
    have ho' := Finset.mem_range.1 (Fintype.mem_piFinset.1 ho a)
    have hle : rate * o a ≤ (k a - 1) * rate := by
      rw [mul_comm]
      exact Nat.mul_le_mul_right _ (by omega)
    have hsum : reachLeft (k a) rate + reachRight (k a) rate = (k a - 1) * rate := by
      unfold reachLeft reachRight
      omega
    have h1 : (rate : ℤ) * (o a : ℕ) = ((rate * o a : ℕ) : ℤ) := by push_cast; ring
    beta_reduce
    rw [h1]
    constructor <;> omega


/-! ## Scale functions -/

theorem map_pointwise (φ : ℝ → ℝ) : Equivariant (d := d) 1 1 (fun x => .ok (x.map φ)) ∧ DependsWithin (d := d) (fun _ => 0) (fun _ => 0) (fun x => .ok (x.map φ)) :=
  equivariant_pointwise (fun n => n) (fun _ v c => φ (v c)) fun n u v h c c0 c1 => by beta_reduce; rw [h c c0 c1]

theorem fixedScale_pointwise (one : ℝ) : Equivariant (d := d) 1 1 (fixedScale one) ∧ DependsWithin (d := d) (fun _ => 0) (fun _ => 0) (fixedScale one) :=
  equivariant_pointwise (fun n => n) (fun _ v c => v c * one) fun n u v h c c0 c1 => by beta_reduce; rw [h c c0 c1]

theorem channelRange_ok (x : Chan d ℝ) (c : ℤ) (h : (box x.shape).Nonempty) :
    channelRange x c = .ok ((box x.shape).inf' h fun i => x.data i c, (box x.shape).sup' h fun i => x.data i c) := by
  unfold channelRange
  rw [dif_pos h]

/-- Least and greatest entry of a channel, characterised by what they are. -/
theorem channelRange_spec (x : Chan d ℝ) (c : ℤ) {mn mx : ℝ} :
    channelRange x c = .ok (mn, mx) ↔
      (∃ i, InR x.shape i ∧ x.data i c = mn) ∧ (∃ i, InR x.shape i ∧ x.data i c = mx) ∧ ∀ i, InR x.shape i → mn ≤ x.data i c ∧ x.data i c ≤ mx := by
  constructor
  · intro h
    by_cases hne : (box x.shape).Nonempty
    · rw [channelRange_ok x c hne] at h
      have h' := Except.ok.inj h
      rw [Prod.mk.injEq] at h'
      obtain ⟨rfl, rfl⟩ := h'
      refine ⟨?_, ?_, ?_⟩
      · obtain ⟨i, hi, e⟩ := Finset.exists_mem_eq_inf' hne fun i => x.data i c
        exact ⟨i, inr_of_mem_box hi, e.symm⟩
      · obtain ⟨i, hi, e⟩ := Finset.exists_mem_eq_sup' hne fun i => x.data i c
        exact ⟨i, inr_of_mem_box hi, e.symm⟩
      · intro i hi
        exact ⟨Finset.inf'_le _ (mem_box.2 hi), Finset.le_sup' (fun i => x.data i c) (mem_box.2 hi)⟩
    · unfold channelRange at h
      rw [dif_neg hne] at h
      exact absurd h (by simp)
  · rintro ⟨⟨i, hi, e1⟩, ⟨j, hj, e2⟩, h⟩
    have hne : (box x.shape).Nonempty := ⟨i, mem_box.2 hi⟩
    rw [channelRange_ok x c hne]
    congr 2
    · apply le_antisymm
      · rw [← e1]
        exact Finset.inf'_le _ (mem_box.2 hi)
      · exact Finset.le_inf' _ _ fun k hk => (h k (inr_of_mem_box hk)).1
    · apply le_antisymm
      · exact Finset.sup'_le _ _ fun k hk => (h k (inr_of_mem_box hk)).2
      · rw [← e2]
        exact Finset.le_sup' (fun i => x.data i c) (mem_box.2 hj)

theorem channelRange_exists (x : Chan d ℝ) (hx : ∀ a, 0 < x.shape a) (c : ℤ) : ∃ mn mx, channelRange x c = .ok (mn, mx) :=
  ⟨_, _, channelRange_ok x c ⟨fun _ => 0, mem_box.2 fun a => ⟨le_refl _, by exact_mod_cast hx a⟩⟩⟩

theorem scaleToRange_run [HasNan ℝ] (lo hi : ℝ) (x : Chan d ℝ) (hx : ∀ a, 0 < x.shape a) :
    ∃ r, scaleToRange lo hi x = .ok r ∧ r.shape = x.shape ∧ r.chan = x.chan ∧
      ∀ (c : ℤ) (mn mx : ℝ), channelRange x c = .ok (mn, mx) → ∀ i, r.data i c = rescaleEntry lo hi mn mx (x.data i c) := by
  have hne : (box x.shape).Nonempty := ⟨fun _ => 0, mem_box.2 fun a => ⟨le_refl _, by exact_mod_cast hx a⟩⟩
  refine ⟨_, if_pos hne, rfl, rfl, ?_⟩
  intro c mn mx h i
  dsimp only
  rw [h]

/-- **C67.** `scale_to_range(lo, hi)` with `lo < hi` maps every channel that is not constant affinely and increasingly onto `[lo, hi]`: entries lie in the range, the least
entry becomes `lo`, the greatest `hi`, and larger entries stay larger. -/
theorem C67_scale_range [HasNan ℝ] (lo hi : ℝ) (hlh : lo < hi) (x : Chan d ℝ) (hx : ∀ a, 0 < x.shape a) (c : ℤ) (hc : ∃ i j, InR x.shape i ∧ InR x.shape j ∧ x.data i c ≠ x.data j c) :
    ∃ r, scaleToRange lo hi x = .ok r ∧ r.shape = x.shape ∧ r.chan = x.chan ∧
      (∀ i, InR x.shape i → lo ≤ r.data i c ∧ r.data i c ≤ hi) ∧ (∃ i, InR x.shape i ∧ r.data i c = lo) ∧ (∃ i, InR x.shape i ∧ r.data i c = hi) ∧
      (∀ i j, r.data i c < r.data j c ↔ x.data i c < x.data j c) ∧
      ∀ i j k l, (r.data i c - r.data j c) * (x.data k c - x.data l c) = (r.data k c - r.data l c) * (x.data i c - x.data j c) := by
  obtain ⟨r, hr, rs, rc, rd⟩ := scaleToRange_run lo hi x hx
  obtain ⟨mn, mx, hm⟩ := channelRange_exists x hx c
  obtain ⟨⟨i0, hi0, e0⟩, ⟨i1, hi1, e1⟩, hb⟩ := (channelRange_spec x c).1 hm
  have hlt : mn < mx := by
    obtain ⟨i, j, hi, hj, hne⟩ := hc
    rcases lt_or_gt_of_ne hne with h | h
    · exact lt_of_le_of_lt (hb i hi).1 (lt_of_lt_of_le h (hb j hj).2)
    · exact lt_of_le_of_lt (hb j hj).1 (lt_of_lt_of_le h (hb i hi).2)
  have hd : ∀ i, r.data i c = (x.data i c - mn) * ((hi - lo) / (mx - mn)) + lo := by
    intro i
    rw [rd c mn mx hm i]
    unfold rescaleEntry
    rw [if_neg hlt.ne', if_neg hlh.ne']
    have h1 : mx - mn ≠ 0 := sub_ne_zero.2 hlt.ne'
    have h2 : hi - lo ≠ 0 := sub_ne_zero.2 hlh.ne'
    field_simp
  have hpos : 0 < (hi - lo) / (mx - mn) := div_pos (sub_pos.2 hlh) (sub_pos.2 hlt)
  have htop : (mx - mn) * ((hi - lo) / (mx - mn)) = hi - lo := mul_div_cancel₀ _ (sub_ne_zero.2 hlt.ne')
  refine ⟨r, hr, rs, rc, ?_, ⟨i0, hi0, ?_⟩, ⟨i1, hi1, ?_⟩, ?_, ?_⟩
  · intro i hi'
    obtain ⟨h1, h2⟩ := hb i hi'
    rw [hd i]
    constructor
    · have := mul_nonneg (sub_nonneg.2 h1) hpos.le
      linarith
    · have := mul_le_mul_of_nonneg_right (sub_le_sub_right h2 mn) hpos.le
      rw [htop] at this
      linarith
  · rw [hd, e0]
    ring
  · rw [hd, e1, htop]
    ring
  · intro i j
    rw [hd i, hd j, add_lt_add_iff_right, mul_lt_mul_iff_left₀ hpos, sub_lt_sub_iff_right]
  · intro i j k l
    rw [hd i, hd j, hd k, hd l]
    ring

/-- **C67.** `scale_to_range` does not see units: replacing the inputs by `α * x + β` with `α > 0` does not change the result. -/
theorem C67_scale_invariant [HasNan ℝ] (lo hi α β : ℝ) (hα : 0 < α) (x y : Chan d ℝ) (hx : ∀ a, 0 < x.shape a) (hs : y.shape = x.shape) (hc : y.chan = x.chan)
    (hy : ∀ i c, y.data i c = α * x.data i c + β) : ∃ r r', scaleToRange lo hi x = .ok r ∧ scaleToRange lo hi y = .ok r' ∧ r'.Eqv r := by
  obtain ⟨r, hr, rs, rc, rd⟩ := scaleToRange_run lo hi x hx
  obtain ⟨r', hr', rs', rc', rd'⟩ := scaleToRange_run lo hi y (by rw [hs]; exact hx)
  refine ⟨r, r', hr, hr', rs'.trans (hs.trans rs.symm), rc'.trans (hc.trans rc.symm), ?_⟩
  intro i c _ _ _
  obtain ⟨mn, mx, hm⟩ := channelRange_exists x hx c
  have hm' : channelRange y c = .ok (α * mn + β, α * mx + β) := by
    obtain ⟨⟨i0, hi0, e0⟩, ⟨i1, hi1, e1⟩, hb⟩ := (channelRange_spec x c).1 hm
    rw [channelRange_spec, hs]
    refine ⟨⟨i0, hi0, by rw [hy, e0]⟩, ⟨i1, hi1, by rw [hy, e1]⟩, fun j hj => ?_⟩
    rw [hy]
    have := hb j hj
    constructor <;> nlinarith
  rw [rd c mn mx hm i, rd' c _ _ hm' i, hy]
  unfold rescaleEntry
  have hiff : α * mx + β = α * mn + β ↔ mx = mn := by
    rw [add_left_inj, mul_right_inj' hα.ne']
  simp only [hiff]
  split_ifs with h1 h2
  · rfl
  · rfl
  · have h3 : mx - mn ≠ 0 := sub_ne_zero.2 h1
    have h4 : hi - lo ≠ 0 := sub_ne_zero.2 h2
    have e1 : α * x.data i c + β - (α * mn + β) = α * (x.data i c - mn) := by ring
    have e2 : α * mx + β - (α * mn + β) = α * (mx - mn) := by ring
    rw [e1, e2]
    field_simp

/-- The finding: a constant channel — fluid at rest, uniform flow — becomes NaN in every entry (0/0). -/
theorem C67_scale_constant_defect [HasNan ℝ] (lo hi : ℝ) (x : Chan d ℝ) (hx : ∀ a, 0 < x.shape a) (c : ℤ) (v : ℝ) (hv : ∀ i, InR x.shape i → x.data i c = v) :
    ∃ r, scaleToRange lo hi x = .ok r ∧ ∀ i, InR x.shape i → r.data i c = HasNan.nan := by
  obtain ⟨r, hr, rs, rc, rd⟩ := scaleToRange_run lo hi x hx
  refine ⟨r, hr, fun i hi' => ?_⟩
  have hz : InR x.shape fun _ => 0 := fun a => ⟨le_refl _, by have := hx a; show (0 : ℤ) < _; omega⟩
  have hm : channelRange x c = .ok (v, v) := by
    rw [channelRange_spec]
    exact ⟨⟨_, hz, hv _ hz⟩, ⟨_, hz, hv _ hz⟩, fun j hj => by rw [hv j hj]; exact ⟨le_refl _, le_refl _⟩⟩
  rw [rd c v v hm i]
  exact if_pos rfl

/-- **C67.** `scale_to_range` commutes with translations. -/
theorem C67_scale_equivariant [HasNan ℝ] (lo hi : ℝ) : Equivariant (d := d) 1 1 (scaleToRange lo hi) := by
  intro x y t hx hy
  have hx0 : ∀ a, 0 < x.shape a := fun a => (hx a).1
  have ys : y.shape = x.shape := hy.1
  have yc : y.chan = x.chan := hy.2.1
  obtain ⟨r, hr, rs, rc, rd⟩ := scaleToRange_run lo hi x hx0
  obtain ⟨r', hr', rs', rc', rd'⟩ := scaleToRange_run lo hi y (by rw [ys]; exact hx0)
  rw [hr, hr']
  refine ⟨(fun e h => nomatch h), fun u h => ⟨r', rfl, ?_, ?_⟩⟩ <;> cases h
  · intro a
    rw [rs]
  · refine ⟨rs'.trans (ys.trans rs.symm), rc'.trans (yc.trans rc.symm), ?_⟩
    intro i c hi' c0 c1
    rw [rs'] at hi'
    rw [rc', yc] at c1
    have hyd : ∀ j, InR y.shape j → y.data j c = x.per (fun a => j a + ((1 : ℕ) : ℤ) * t a) c := fun j hj => hy.2.2 j c hj c0 (by rw [yc]; exact c1)
    obtain ⟨mn, mx, hm⟩ := channelRange_exists x hx0 c
    have hm' : channelRange y c = .ok (mn, mx) := by
      obtain ⟨⟨i0, hi0, e0⟩, ⟨i1, hi1, e1⟩, hb⟩ := (channelRange_spec x c).1 hm
      have hback : ∀ j : Idx d, InR x.shape j → ∃ j', InR y.shape j' ∧ y.data j' c = x.data j c := by
        intro j hj
        refine ⟨fun a => (j a - t a) % (x.shape a : ℤ), by rw [ys]; exact Chan.mod_inR _ hx0 _, ?_⟩
        rw [hyd _ (by rw [ys]; exact Chan.mod_inR _ hx0 _), ← x.per_of_inR hj]
        unfold Chan.per
        congr 1
        funext a
        beta_reduce
        rw [Int.emod_add_emod]
        congr 1
        push_cast
        ring
      rw [channelRange_spec]
      refine ⟨?_, ?_, ?_⟩
      · obtain ⟨j, hj, e⟩ := hback i0 hi0
        exact ⟨j, hj, e.trans e0⟩
      · obtain ⟨j, hj, e⟩ := hback i1 hi1
        exact ⟨j, hj, e.trans e1⟩
      · intro j hj
        rw [hyd j hj]
        exact hb _ (Chan.mod_inR _ hx0 _)
    rw [rd' c mn mx hm' i, hyd i hi']
    show _ = r.data (fun a => (i a + ((1 : ℕ) : ℤ) * t a) % (r.shape a : ℤ)) c
    rw [rd c mn mx hm, rs]
    rfl


/-! ## Towers -/

theorem hidden_equivariant (conv : ConvModule d) (φ : ℝ → ℝ) (p : ℕ → ConvParams d) (μ ν : LayerSpec d → ℕ) (layers : List (LayerSpec d)) (n : ℕ)
    (h : ∀ s ∈ layers, 0 < μ s ∧ 0 < ν s ∧ ∀ k, Equivariant (μ s) (ν s) (conv (p k) s.channels s.kernel s.rate s.stride)) :
    Equivariant (layers.map μ).prod (layers.map ν).prod (hiddenLayers conv φ p n layers) := by
  induction layers generalizing n with
  | nil => exact equivariant_ok
  | cons s l ih =>
      obtain ⟨h1, h2, h3⟩ := h s (by simp)
      have h4 := ih (n + 1) fun s hs => h s (by simp [hs])
      have h5 := (map_pointwise (d := d) φ).1.comp one_pos one_pos h4
      have h6 := (h3 n).comp h1 h2 h5
      rw [List.map_cons, List.prod_cons, List.map_cons, List.prod_cons]
      rw [one_mul, one_mul] at h6
      exact h6

theorem hidden_dependsWithin (conv : ConvModule d) (φ : ℝ → ℝ) (p : ℕ → ConvParams d) (L R : LayerSpec d → Fin d → ℕ) (layers : List (LayerSpec d)) (n : ℕ)
    (h : ∀ s ∈ layers, ∀ k, DependsWithin (L s) (R s) (conv (p k) s.channels s.kernel s.rate s.stride)) :
    DependsWithin (fun a => (layers.map fun s => L s a).sum) (fun a => (layers.map fun s => R s a).sum) (hiddenLayers conv φ p n layers) := by
  induction layers generalizing n with
  | nil => exact dependsWithin_ok
  | cons s l ih =>
      have h4 := ih (n + 1) fun s hs => h s (by simp [hs])
      have h5 := (map_pointwise (d := d) φ).2.comp h4
      have h6 := (h s (by simp) n).comp h5
      simp only [zero_add] at h6
      simp only [List.map_cons, List.sum_cons]
      exact h6

theorem zipLayers_map {α : Type} (f : LayerSpec d → α) (g : ℕ → α) (channels : List ℕ) (kernels : List (Fin d → ℕ)) (rates strides : List ℕ)
    (h1 : kernels.length = channels.length) (h2 : rates.length = channels.length) (h3 : strides.length = channels.length) (hf : ∀ s, f s = g s.stride) :
    (zipLayers channels kernels rates strides).map f = strides.map g := by
  unfold zipLayers
  apply List.ext_getElem
  · simp
    omega
  · intro i _ _
    simp [hf]

theorem zipLayers_mem {channels : List ℕ} {kernels : List (Fin d → ℕ)} {rates strides : List ℕ} {s : LayerSpec d} (h : s ∈ zipLayers channels kernels rates strides) :
    s.channels ∈ channels ∧ s.kernel ∈ kernels ∧ s.rate ∈ rates ∧ s.stride ∈ strides := by
  unfold zipLayers at h
  rw [List.mem_map] at h
  obtain ⟨q, hq, rfl⟩ := h
  have h1 := List.of_mem_zip (a := q.1) (b := q.2) hq
  have h2 := List.of_mem_zip (a := q.2.1) (b := q.2.2) h1.2
  have h3 := List.of_mem_zip (a := q.2.2.1) (b := q.2.2.2) h2.2
  exact ⟨h1.1, h2.1, h3.1, h3.2⟩

/-- The sizes of a tower make sense: kernels, rates and strides are positive. -/
structure Sensible (out : LayerSpec d) (channels : List ℕ) (kernels : List (Fin d → ℕ)) (rates strides : IntOrTuple) : Prop where
  kernels : ∀ k ∈ kernels, ∀ a, 0 < k a
  rates : ∀ r ∈ rates.expand channels.length, 0 < r
  strides : ∀ s ∈ strides.expand channels.length, 0 < s
  outKernel : ∀ a, 0 < out.kernel a
  outRate : 0 < out.rate
  outStride : 0 < out.stride

/-- **C67.** A tower can be constructed exactly if there are as many kernels, rates and strides as hidden channels (an `int` stands for any number), and raises a
ValueError otherwise. -/
theorem C67_lengths (out : LayerSpec d) (channels : List ℕ) (kernels : List (Fin d → ℕ)) (rates strides : IntOrTuple) (conv : ConvModule d) (φ : ℝ → ℝ)
    (scaleIn scaleOut : Net d) (p : ℕ → ConvParams d) :
    (∃ F, flexTower out channels kernels rates strides conv φ scaleIn scaleOut p = .ok F) ↔
      kernels.length = channels.length ∧ (∀ l, rates = .tuple l → l.length = channels.length) ∧ (∀ l, strides = .tuple l → l.length = channels.length) := by
  have hexp : ∀ t : IntOrTuple, (t.expand channels.length).length = channels.length ↔ ∀ l, t = .tuple l → l.length = channels.length := by
    intro t
    cases t with
    | int r => simp [IntOrTuple.expand]
    | tuple l => simp [IntOrTuple.expand]
  rw [← hexp rates, ← hexp strides]
  unfold flexTower
  dsimp only
  split_ifs with h
  · exact ⟨fun _ => h, fun _ => ⟨_, rfl⟩⟩
  · exact ⟨fun ⟨F, hF⟩ => absurd hF (by simp), fun h' => absurd h' h⟩

theorem C67_lengths_error (out : LayerSpec d) (channels : List ℕ) (kernels : List (Fin d → ℕ)) (rates strides : IntOrTuple) (conv : ConvModule d) (φ : ℝ → ℝ)
    (scaleIn scaleOut : Net d) (p : ℕ → ConvParams d) :
    (∃ F, flexTower out channels kernels rates strides conv φ scaleIn scaleOut p = .ok F) ∨
      flexTower out channels kernels rates strides conv φ scaleIn scaleOut p = .error .value := by
  unfold flexTower
  dsimp only
  split_ifs
  · exact .inl ⟨_, rfl⟩
  · exact .inr rfl

theorem flexTower_ok {out : LayerSpec d} {channels : List ℕ} {kernels : List (Fin d → ℕ)} {rates strides : IntOrTuple} {conv : ConvModule d} {φ : ℝ → ℝ}
    {scaleIn scaleOut : Net d} {p : ℕ → ConvParams d} {F : Net d} (h : flexTower out channels kernels rates strides conv φ scaleIn scaleOut p = .ok F) :
    (kernels.length = channels.length ∧ (rates.expand channels.length).length = channels.length ∧ (strides.expand channels.length).length = channels.length) ∧
    F = forwardPass conv φ scaleIn scaleOut p (zipLayers channels kernels (rates.expand channels.length) (strides.expand channels.length)) out := by
  unfold flexTower at h
  dsimp only at h
  split_ifs at h with hl
  exact ⟨hl, (Except.ok.inj h).symm⟩

/-- **C67.** A tower of strided periodic convolutions commutes with translations: for all weights, nonlinearities and architectures, translating the input by a multiple
`S * t` of the product `S` of all strides (which must divide every axis) translates the output by `t`; without strides this is exact translation equivariance. -/
theorem C67_tower_equivariant (out : LayerSpec d) (channels : List ℕ) (kernels : List (Fin d → ℕ)) (rates strides : IntOrTuple) (φ : ℝ → ℝ)
    (scaleIn scaleOut : Net d) (p : ℕ → ConvParams d) (F : Net d) (h : flexTower out channels kernels rates strides periodicConvModule φ scaleIn scaleOut p = .ok F)
    (hs : Sensible out channels kernels rates strides) (hi : Equivariant 1 1 scaleIn) (ho : Equivariant 1 1 scaleOut) :
    Equivariant ((strides.expand channels.length).prod * out.stride) 1 F := by
  obtain ⟨⟨h1, h2, h3⟩, rfl⟩ := flexTower_ok h
  have hl := hidden_equivariant periodicConvModule φ p (fun s => s.stride) (fun _ => 1) (zipLayers channels kernels (rates.expand channels.length) (strides.expand channels.length)) 0
    fun s hm => by
      obtain ⟨-, m2, m3, m4⟩ := zipLayers_mem hm
      exact ⟨hs.strides _ m4, one_pos, fun k => conv_equivariant _ _ _ (hs.kernels _ m2) _ _ (hs.rates _ m3) (hs.strides _ m4)⟩
  rw [zipLayers_map (fun s => s.stride) (fun k => k) channels kernels _ _ h1 h2 h3 fun s => rfl, List.map_id'] at hl
  have hone : ((zipLayers channels kernels (rates.expand channels.length) (strides.expand channels.length)).map fun _ => 1).prod = 1 := by simp
  rw [hone] at hl
  have hpos : 0 < (strides.expand channels.length).prod := List.prod_pos hs.strides
  have hc := conv_equivariant (p (zipLayers channels kernels (rates.expand channels.length) (strides.expand channels.length)).length) out.channels out.kernel hs.outKernel out.rate out.stride
    hs.outRate hs.outStride
  have h4 := hi.comp one_pos one_pos (hl.comp hpos one_pos (hc.comp hs.outStride one_pos ho))
  simp only [one_mul, mul_one] at h4
  exact h4

/-- **C67.** The same for towers of transpose convolutions, which enlarge: the output is translated by the product of the strides times the translation of the input. -/
theorem C67_transpose_tower_equivariant (out : LayerSpec d) (channels : List ℕ) (kernels : List (Fin d → ℕ)) (rates strides : IntOrTuple) (φ : ℝ → ℝ)
    (scaleIn scaleOut : Net d) (p : ℕ → ConvParams d) (F : Net d) (h : flexTower out channels kernels rates strides periodicTransposeConvolution φ scaleIn scaleOut p = .ok F)
    (hs : Sensible out channels kernels rates strides) (hi : Equivariant 1 1 scaleIn) (ho : Equivariant 1 1 scaleOut) :
    Equivariant 1 ((strides.expand channels.length).prod * out.stride) F := by
  obtain ⟨⟨h1, h2, h3⟩, rfl⟩ := flexTower_ok h
  have hl := hidden_equivariant periodicTransposeConvolution φ p (fun _ => 1) (fun s => s.stride) (zipLayers channels kernels (rates.expand channels.length) (strides.expand channels.length)) 0
    fun s hm => by
      obtain ⟨-, m2, m3, m4⟩ := zipLayers_mem hm
      exact ⟨one_pos, hs.strides _ m4, fun k => transpose_equivariant _ _ _ (hs.kernels _ m2) _ _ (hs.strides _ m4)⟩
  rw [zipLayers_map (fun s => s.stride) (fun k => k) channels kernels _ _ h1 h2 h3 fun s => rfl, List.map_id'] at hl
  have hone : ((zipLayers channels kernels (rates.expand channels.length) (strides.expand channels.length)).map fun _ => 1).prod = 1 := by simp
  rw [hone] at hl
  have hpos : 0 < (strides.expand channels.length).prod := List.prod_pos hs.strides
  have hc := transpose_equivariant (p (zipLayers channels kernels (rates.expand channels.length) (strides.expand channels.length)).length) out.channels out.kernel hs.outKernel out.rate out.stride
    hs.outStride
  have h4 := hi.comp one_pos one_pos (hl.comp one_pos hpos (hc.comp one_pos hs.outStride ho))
  simp only [one_mul, mul_one] at h4
  exact h4

/-- **C67.** The receptive field: without strides, and with scale functions acting point by point, the output of a tower at a point depends only on the inputs from
`Σ ⌈(k-1) rate / 2⌉` points before to `Σ ⌊(k-1) rate / 2⌋` points after it along each axis. -/
theorem C67_receptive_field (out : LayerSpec d) (channels : List ℕ) (kernels : List (Fin d → ℕ)) (rates strides : IntOrTuple) (φ : ℝ → ℝ)
    (scaleIn scaleOut : Net d) (p : ℕ → ConvParams d) (F : Net d) (h : flexTower out channels kernels rates strides periodicConvModule φ scaleIn scaleOut p = .ok F)
    (hs : Sensible out channels kernels rates strides) (h1 : ∀ s ∈ strides.expand channels.length, s = 1) (h2 : out.stride = 1)
    (hi : DependsWithin (fun _ => 0) (fun _ => 0) scaleIn) (ho : DependsWithin (fun _ => 0) (fun _ => 0) scaleOut) :
    DependsWithin
      (fun a => ((kernels.zip (rates.expand channels.length)).map fun q => reachLeft (q.1 a) q.2).sum + reachLeft (out.kernel a) out.rate)
      (fun a => ((kernels.zip (rates.expand channels.length)).map fun q => reachRight (q.1 a) q.2).sum + reachRight (out.kernel a) out.rate) F := by
  obtain ⟨⟨l1, l2, l3⟩, rfl⟩ := flexTower_ok h
  have hl := hidden_dependsWithin periodicConvModule φ p (fun s a => reachLeft (s.kernel a) s.rate) (fun s a => reachRight (s.kernel a) s.rate)
    (zipLayers channels kernels (rates.expand channels.length) (strides.expand channels.length)) 0
    fun s hm k => by
      obtain ⟨-, m2, m3, m4⟩ := zipLayers_mem hm
      rw [h1 _ m4]
      exact conv_dependsWithin _ _ _ (hs.kernels _ m2) _ (hs.rates _ m3)
  have hc := conv_dependsWithin (p (zipLayers channels kernels (rates.expand channels.length) (strides.expand channels.length)).length) out.channels out.kernel hs.outKernel out.rate
    hs.outRate
  rw [← h2] at hc
  have h4 := hi.comp (hl.comp (hc.comp ho))
  have e : ∀ (f : ℕ → ℕ → ℕ) (a : Fin d), (zipLayers channels kernels (rates.expand channels.length) (strides.expand channels.length)).map (fun s => f (s.kernel a) s.rate) =
      (kernels.zip (rates.expand channels.length)).map fun q => f (q.1 a) q.2 := by
    intro f a
    unfold zipLayers
    apply List.ext_getElem
    · simp
      omega
    · intro i _ _
      simp
  simp only [zero_add, add_zero, e reachLeft, e reachRight] at h4
  exact h4

theorem hidden_succeeds (hd : d = 1 ∨ d = 2 ∨ d = 3) (φ : ℝ → ℝ) (p : ℕ → ConvParams d) (layers : List (LayerSpec d)) (n : ℕ) (x : Chan d ℝ) (hx : ∀ a, 0 < x.shape a)
    (h : ∀ s ∈ layers, s.stride = 1 ∧ 0 < s.rate ∧ ∀ a, 0 < s.kernel a ∧ reachLeft (s.kernel a) s.rate ≤ x.shape a) :
    ∃ y, hiddenLayers periodicConvModule φ p n layers x = .ok y ∧ y.shape = x.shape := by
  induction layers generalizing n x with
  | nil => exact ⟨x, rfl, rfl⟩
  | cons s l ih =>
      obtain ⟨h1, h2, h3⟩ := h s (by simp)
      obtain ⟨y, hy, ys, -, -⟩ := (C67_strided_conv hd (p n) s.channels s.kernel (fun a => (h3 a).1) s.rate s.stride h2 (by omega) x hx).2 fun a => (h3 a).2
      have ys' : y.shape = x.shape := funext fun a => by rw [ys a, h1]; simp
      obtain ⟨z, hz, zs⟩ := ih (n + 1) (y.map φ) (by show ∀ a, 0 < y.shape a; rw [ys']; exact hx) fun s hs => by
        show _ ∧ _ ∧ ∀ a, 0 < s.kernel a ∧ reachLeft (s.kernel a) s.rate ≤ y.shape a
        rw [ys']
        exact h s (by simp [hs])
      refine ⟨z, ?_, zs.trans ys'⟩
      unfold hiddenLayers
      rw [hy, Except.bind_ok]
      exact hz

/-- **C67.** Without strides a tower with the default scale functions succeeds on every input at least as large as the reach of each of its kernels; the output has the spatial
shape of the input and the requested number of channels. -/
theorem C67_tower_succeeds (hd : d = 1 ∨ d = 2 ∨ d = 3) (out : LayerSpec d) (channels : List ℕ) (kernels : List (Fin d → ℕ)) (rates strides : IntOrTuple) (φ : ℝ → ℝ)
    (p : ℕ → ConvParams d) (F : Net d) (h : flexTower out channels kernels rates strides periodicConvModule φ (fun x => .ok x) (fun x => .ok x) p = .ok F)
    (hs : Sensible out channels kernels rates strides) (h1 : ∀ s ∈ strides.expand channels.length, s = 1) (h2 : out.stride = 1) (x : Chan d ℝ) (hx : ∀ a, 0 < x.shape a)
    (hsize : ∀ a, (∀ k ∈ kernels, ∀ r ∈ rates.expand channels.length, reachLeft (k a) r ≤ x.shape a) ∧ reachLeft (out.kernel a) out.rate ≤ x.shape a) :
    ∃ r, F x = .ok r ∧ r.shape = x.shape ∧ r.chan = out.channels := by
  obtain ⟨-, rfl⟩ := flexTower_ok h
  obtain ⟨y, hy, ys⟩ := hidden_succeeds hd φ p (zipLayers channels kernels (rates.expand channels.length) (strides.expand channels.length)) 0 x hx fun s hm => by
    obtain ⟨-, m2, m3, m4⟩ := zipLayers_mem hm
    exact ⟨h1 _ m4, hs.rates _ m3, fun a => ⟨hs.kernels _ m2 a, (hsize a).1 _ m2 _ m3⟩⟩
  obtain ⟨z, hz, zs, zc, -⟩ := (C67_strided_conv hd (p (zipLayers channels kernels (rates.expand channels.length) (strides.expand channels.length)).length) out.channels out.kernel
    hs.outKernel out.rate out.stride hs.outRate hs.outStride y (by rw [ys]; exact hx)).2 fun a => by rw [ys]; exact (hsize a).2
  refine ⟨z, ?_, funext fun a => by rw [zs a, h2, ys]; simp, zc⟩
  unfold forwardPass
  simp only [Except.bind_ok, hy, hz]

/-- **C67.** `forward_tower_factory` without strides: the receptive field of a tower with `n` hidden layers of kernel size `k` and dilation `rate` and an output layer of kernel size `k'`
reaches at most `n ⌈(k-1) rate / 2⌉ + ⌈(k'-1) rate' / 2⌉` points. -/
theorem C67_forward_tower (numOut hidden k n rate k' rate' : ℕ) (hk : 0 < k) (hk' : 0 < k') (hr : 0 < rate) (hr' : 0 < rate') (φ : ℝ → ℝ) (p : ℕ → ConvParams d) :
    ∃ F, forwardTower numOut hidden k n (.int rate) (.int 1) k' rate' 1 periodicConvModule φ (fun x => .ok x) (fun x => .ok x) p = .ok F ∧ Equivariant 1 1 F ∧
      DependsWithin (fun _ => n * reachLeft k rate + reachLeft k' rate') (fun _ => n * reachRight k rate + reachRight k' rate') F := by
  unfold forwardTower
  obtain ⟨F, hF⟩ := (C67_lengths (⟨numOut, fun _ => k', rate', 1⟩ : LayerSpec d) (List.replicate n hidden) (List.replicate n fun _ => k) (.int rate) (.int 1) periodicConvModule φ
    (fun x => .ok x) (fun x => .ok x) p).2 ⟨by simp, by simp, by simp⟩
  have hs : Sensible (⟨numOut, fun _ => k', rate', 1⟩ : LayerSpec d) (List.replicate n hidden) (List.replicate n fun _ => k) (.int rate) (.int 1) :=
    ⟨fun q hq a => by rw [List.eq_of_mem_replicate hq]; exact hk, fun q hq => by rw [List.eq_of_mem_replicate hq]; exact hr,
      fun q hq => by rw [List.eq_of_mem_replicate hq]; exact one_pos, fun _ => hk', hr', one_pos⟩
  refine ⟨F, hF, ?_, ?_⟩
  · have := C67_tower_equivariant _ _ _ _ _ φ _ _ p F hF hs equivariant_ok equivariant_ok
    simpa [IntOrTuple.expand] using this
  · have := C67_receptive_field _ _ _ _ _ φ _ _ p F hF hs (fun q hq => List.eq_of_mem_replicate hq) rfl dependsWithin_ok dependsWithin_ok
    simpa [IntOrTuple.expand, List.zip_replicate'] using this

end JaxCfd
