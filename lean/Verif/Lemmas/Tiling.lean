import Verif.Model.Tiling
import Verif.Lemmas.Reshape
import Verif.SpecML

/-! Lemmas about tiling. -/

namespace JaxCfd
variable {d : ℕ} {K : Type}

theorem tileIdx_tileNum {L : Fin d → ℕ} {t : Idx d} (h : InR L t) : tileIdx L (tileNum L t) = t := by
  funext a
  unfold tileIdx tileNum
  rw [unravel_ravel (lInR_ofFn h), ofFn_getD]

theorem tileNum_bounds {L : Fin d → ℕ} {t : Idx d} (h : InR L t) : 0 ≤ tileNum L t ∧ tileNum L t < (layoutSize L : ℕ) :=
  ravelIdx_bounds (lInR_ofFn h)

theorem ofFn_getD_list (l : List ℤ) (h : l.length = d) : List.ofFn (fun a : Fin d => l.getD a 0) = l := by
  subst h
  apply List.ext_getElem
  · simp
  · intro i h1 h2
    simp only [List.getElem_ofFn]
    rw [List.getD_eq_getElem]

theorem tileNum_tileIdx {L : Fin d → ℕ} {b : ℤ} (h0 : 0 ≤ b) (h1 : b < (layoutSize L : ℕ)) : tileNum L (tileIdx L b) = b := by
  unfold tileIdx tileNum
  rw [ofFn_getD_list _ (by rw [unravelIdx_length, List.length_ofFn]), ravel_unravel h0 h1]

theorem inR_of_lInR {s : Fin d → ℕ} {l : List ℤ} (h : LInR (List.ofFn s) l) : InR s fun a => l.getD a 0 := by
  induction d generalizing l with
  | zero => intro a; exact a.elim0
  | succ d ih =>
    rw [List.ofFn_succ] at h
    cases l with
    | nil => exact h.elim
    | cons i is =>
      intro a
      refine Fin.cases ?_ (fun a => ?_) a
      · exact h.1
      · exact ih h.2 a

theorem tileIdx_inR {L : Fin d → ℕ} (h : ∀ a, 0 < L a) (b : ℤ) : InR L (tileIdx L b) := by
  apply inR_of_lInR
  apply unravelIdx_inR
  intro s hs
  rw [List.mem_ofFn] at hs
  obtain ⟨a, rfl⟩ := hs
  exact h a

/-- Splitting a position modulo `L*n` into its tile and its place in the tile. -/
theorem tile_mod {L n : ℕ} {q r : ℤ} (hL : 0 < L) (h0 : 0 ≤ r) (h1 : r < n) :
    ((q * n + r) % ((L * n : ℕ) : ℤ)) / n = q % L ∧ ((q * n + r) % ((L * n : ℕ) : ℤ)) % n = r := by
  have hn : (0 : ℤ) < n := by omega
  have hL' : (0 : ℤ) < L := by omega
  have e : (q * n + r) % ((L * n : ℕ) : ℤ) = (q % L) * n + r := by
    rw [Nat.cast_mul]
    have b0 := Int.emod_nonneg q hL'.ne'
    have b1 := Int.emod_lt_of_pos q hL'
    conv_lhs => rw [← Int.ediv_mul_add_emod q L]
    rw [show (q / L * L + q % L) * n + r = (q % L * n + r) + (L * n) * (q / L) by ring, Int.add_mul_emod_self_left]
    apply Int.emod_eq_of_lt
    · positivity
    · nlinarith
  rw [e]
  constructor
  · rw [add_comm, Int.add_mul_ediv_right _ _ hn.ne', Int.ediv_eq_zero_of_lt h0 h1, zero_add]
  · rw [add_comm, Int.add_mul_emod_self_right, Int.emod_eq_of_lt h0 h1]

theorem verifyLayout_ok {y : Tiled d K} {L : Fin d → ℕ} (h : y.batch = layoutSize L) : verifyLayout y L = .ok () := by
  unfold verifyLayout
  rw [if_neg (by simpa using h)]

theorem tileRoll_ok {y : Tiled d K} {L : Fin d → ℕ} (hd : tileRank d = true) (hb : y.batch = layoutSize L) (s : ℤ) (ax : Fin d) :
    tileRoll y L s ax = .ok { y with
      data := fun b j c => y.data (tileNum L (Function.update (tileIdx L b) ax ((tileIdx L b ax - s) % L ax))) j c } := by
  unfold tileRoll
  rw [verifyLayout_ok hb]
  simp only [bind, Except.bind]
  rw [if_neg (by simp [hd])]

theorem dynamicSlice_ok {y : Tiled d K} {s : ℤ} {n : ℕ} {ax : Fin d} (h : n ≤ y.shape ax) (h0 : 0 ≤ s) (h1 : s + n ≤ y.shape ax) :
    y.dynamicSlice s n ax = .ok { y with
      shape := Function.update y.shape ax n
      data := fun b j c => y.data b (Function.update j ax (j ax + s)) c } := by
  unfold Tiled.dynamicSlice
  rw [if_neg (by omega)]
  have : max 0 (min s ((y.shape ax : ℤ) - n)) = s := by omega
  rw [this]

/-- One axis of the halo exchange. -/
theorem haloPad1d_ok {y : Tiled d K} {L : Fin d → ℕ} (hd : tileRank d = true) (hb : y.batch = layoutSize L) (hL : ∀ a, 0 < L a)
    (ax : Fin d) (p : ℕ × ℕ) (hn : 0 < y.shape ax) (h1 : p.1 ≤ y.shape ax) (h2 : p.2 ≤ y.shape ax) :
    ∃ z : Tiled d K, haloPad1d y L ax p = .ok z ∧ z.batch = y.batch ∧ z.chan = y.chan ∧
      z.shape = Function.update y.shape ax (p.1 + y.shape ax + p.2) ∧
      ∀ (t j : Idx d) (c : ℤ), InR L t → 0 ≤ j ax → j ax < p.1 + y.shape ax + p.2 →
        z.data (tileNum L t) j c =
          y.data (tileNum L (Function.update t ax (((t ax * y.shape ax + (j ax - p.1)) % ((L ax * y.shape ax : ℕ) : ℤ)) / y.shape ax)))
            (Function.update j ax (((t ax * y.shape ax + (j ax - p.1)) % ((L ax * y.shape ax : ℕ) : ℤ)) % y.shape ax)) c := by
  obtain ⟨pl, pr⟩ := p
  dsimp only at *
  -- the left piece
  obtain ⟨l, hl, lb, lc, ls, ld⟩ : ∃ l : Tiled d K,
      haloLeft y L ax pl = .ok l ∧ l.batch = y.batch ∧ l.chan = y.chan ∧
      l.shape = Function.update y.shape ax (pl + y.shape ax) ∧
      ∀ (t j : Idx d) (c : ℤ), InR L t → 0 ≤ j ax → j ax < pl + y.shape ax →
        l.data (tileNum L t) j c =
          y.data (tileNum L (Function.update t ax (((t ax * y.shape ax + (j ax - pl)) % ((L ax * y.shape ax : ℕ) : ℤ)) / y.shape ax)))
            (Function.update j ax (((t ax * y.shape ax + (j ax - pl)) % ((L ax * y.shape ax : ℕ) : ℤ)) % y.shape ax)) c := by
    unfold haloLeft
    by_cases hp : pl = 0
    · subst hp
      rw [if_pos rfl]
      refine ⟨y, rfl, rfl, rfl, by simp, ?_⟩
      intro t j c ht j0 j1
      obtain ⟨e1, e2⟩ := tile_mod (n := y.shape ax) (q := t ax) (r := j ax - ((0 : ℕ) : ℤ)) (hL ax) (by simpa using j0) (by push_cast; omega)
      rw [e1, e2, Int.emod_eq_of_lt (ht ax).1 (ht ax).2]
      simp
    · rw [if_neg hp, dynamicSlice_ok h1 (by omega) (by omega)]
      simp only [bind, Except.bind]
      rw [tileRoll_ok hd (by exact hb)]
      refine ⟨_, rfl, rfl, rfl, ?_, ?_⟩
      · simp [Tiled.concat]
      · intro t j c ht j0 j1
        simp only [Tiled.concat, Function.update_self]
        by_cases hj : j ax < pl
        · rw [if_pos hj, tileIdx_tileNum ht]
          obtain ⟨e1, e2⟩ := tile_mod (L := L ax) (n := y.shape ax) (q := t ax - 1) (r := j ax + ((y.shape ax : ℤ) - pl)) (hL ax) (by omega) (by omega)
          rw [show t ax * (y.shape ax : ℤ) + (j ax - pl) = (t ax - 1) * y.shape ax + (j ax + ((y.shape ax : ℤ) - pl)) by ring, e1, e2]
        · rw [if_neg hj]
          obtain ⟨e1, e2⟩ := tile_mod (L := L ax) (n := y.shape ax) (q := t ax) (r := j ax - pl) (hL ax) (by omega) (by omega)
          rw [e1, e2, Int.emod_eq_of_lt (ht ax).1 (ht ax).2]
          simp
  unfold haloPad1d
  dsimp only
  rw [hl]
  simp only [bind, Except.bind]
  by_cases hp : pr = 0
  · subst hp
    rw [if_pos rfl]
    exact ⟨l, rfl, lb, lc, by simpa using ls, fun t j c ht j0 j1 => ld t j c ht j0 (by push_cast at j1; omega)⟩
  · rw [if_neg hp, dynamicSlice_ok h2 (by omega) (by omega)]
    dsimp only
    rw [tileRoll_ok hd (by exact hb)]
    refine ⟨_, rfl, lb, lc, ?_, ?_⟩
    · simp [Tiled.concat, ls]
    · intro t j c ht j0 j1
      simp only [Tiled.concat, ls, Function.update_self]
      by_cases hj : j ax < (pl + y.shape ax : ℕ)
      · rw [if_pos hj]
        exact ld t j c ht j0 (by push_cast at hj; omega)
      · rw [if_neg hj, tileIdx_tileNum ht]
        push_cast at hj ⊢
        obtain ⟨e1, e2⟩ := tile_mod (L := L ax) (n := y.shape ax) (q := t ax + 1) (r := j ax - (pl + y.shape ax)) (hL ax) (by omega) (by omega)
        rw [← Nat.cast_mul, show t ax * (y.shape ax : ℤ) + (j ax - pl) = (t ax + 1) * y.shape ax + (j ax - (pl + y.shape ax)) by ring, e1, e2]
        simp

theorem foldlM_take_inv {α : Type} (f : α → Fin d → Except Err α) (P : ℕ → α → Prop) (m : ℕ) (hm : m ≤ d)
    (step : ∀ (a : Fin d) (x : α), (a : ℕ) < m → P a x → ∃ y, f x a = .ok y ∧ P (a + 1) y) (x : α) (h : P 0 x) :
    ∃ y, ((List.finRange d).take m).foldlM f x = .ok y ∧ P m y := by
  induction m with
  | zero => exact ⟨x, rfl, h⟩
  | succ m ih =>
    obtain ⟨y, h1, h2⟩ := ih (by omega) (fun a x ha => step a x (by omega))
    obtain ⟨z, h3, h4⟩ := step ⟨m, by omega⟩ y (by simp) h2
    refine ⟨z, ?_, h4⟩
    rw [List.take_succ_eq_append_getElem (by simp; omega), List.foldlM_append, h1]
    simp only [bind, Except.bind, List.getElem_finRange, List.foldlM_cons, List.foldlM_nil]
    have : (Fin.cast List.length_finRange ⟨m, by simp; omega⟩ : Fin d) = ⟨m, by omega⟩ := rfl
    rw [this, h3]
    rfl

theorem foldlM_finRange_inv {α : Type} (f : α → Fin d → Except Err α) (P : ℕ → α → Prop)
    (step : ∀ (a : Fin d) (x : α), P a x → ∃ y, f x a = .ok y ∧ P (a + 1) y) (x : α) (h : P 0 x) :
    ∃ y, (List.finRange d).foldlM f x = .ok y ∧ P d y := by
  obtain ⟨y, h1, h2⟩ := foldlM_take_inv f P d le_rfl (fun a x _ => step a x) x h
  rw [List.take_of_length_le (by simp)] at h1
  exact ⟨y, h1, h2⟩

theorem foldlM_finRange_error {α : Type} (f : α → Fin d → Except Err α) (P : ℕ → α → Prop) (m : Fin d)
    (step : ∀ (a : Fin d) (x : α), a < m → P a x → ∃ y, f x a = .ok y ∧ P (a + 1) y) (e : Err)
    (he : ∀ x, P m x → f x m = .error e) (x : α) (h : P 0 x) :
    (List.finRange d).foldlM f x = .error e := by
  obtain ⟨y, h1, h2⟩ := foldlM_take_inv f P m m.2.le (fun a x ha => step a x ha) x h
  rw [← List.take_append_drop m (List.finRange d), List.foldlM_append, h1]
  simp only [bind, Except.bind]
  rw [List.drop_eq_getElem_cons (by simp), List.foldlM_cons]
  have : (List.finRange d)[(m : ℕ)]'(by simp) = m := by simp
  rw [this, he y h2]
  rfl

/-- The halo exchange: entry `j` of tile `t` is the entry of the periodic global array at position
`t*n + j - pad_left`. -/
theorem haloExchangePad_ok {y : Tiled d K} {L : Fin d → ℕ} (hd : tileRank d = true) (hb : y.batch = layoutSize L) (hL : ∀ a, 0 < L a)
    (p : Fin d → ℕ × ℕ) (hn : ∀ a, 0 < y.shape a) (h1 : ∀ a, (p a).1 ≤ y.shape a) (h2 : ∀ a, (p a).2 ≤ y.shape a) :
    ∃ z : Tiled d K, haloExchangePad y L p = .ok z ∧ z.batch = y.batch ∧ z.chan = y.chan ∧
      (z.shape = fun a => (p a).1 + y.shape a + (p a).2) ∧
      ∀ (t j : Idx d) (c : ℤ), InR L t → InR (fun a => (p a).1 + y.shape a + (p a).2) j →
        z.data (tileNum L t) j c =
          y.data (tileNum L fun a => ((t a * y.shape a + (j a - (p a).1)) % ((L a * y.shape a : ℕ) : ℤ)) / y.shape a)
            (fun a => ((t a * y.shape a + (j a - (p a).1)) % ((L a * y.shape a : ℕ) : ℤ)) % y.shape a) c := by
  unfold haloExchangePad
  rw [verifyLayout_ok hb]
  simp only [bind, Except.bind]
  let q : ℕ → Fin d → ℕ × ℕ := fun m a => if (a : ℕ) < m then p a else (0, 0)
  obtain ⟨z, hz, zb, zc, zs, zd⟩ := foldlM_finRange_inv (fun out ax => haloPad1d out L ax (p ax))
    (fun m z => z.batch = y.batch ∧ z.chan = y.chan ∧
      (z.shape = fun a => (q m a).1 + y.shape a + (q m a).2) ∧
      ∀ (t j : Idx d) (c : ℤ), InR L t → InR (fun a => (q m a).1 + y.shape a + (q m a).2) j →
        z.data (tileNum L t) j c =
          y.data (tileNum L fun a => ((t a * y.shape a + (j a - (q m a).1)) % ((L a * y.shape a : ℕ) : ℤ)) / y.shape a)
            (fun a => ((t a * y.shape a + (j a - (q m a).1)) % ((L a * y.shape a : ℕ) : ℤ)) % y.shape a) c)
    (by
      intro ax z ⟨zb, zc, zs, zd⟩
      have hq : q ax ax = (0, 0) := by simp [q]
      have hq' : q (ax + 1) ax = p ax := by simp [q]
      have hqo : ∀ a, a ≠ ax → q (ax + 1) a = q ax a := by
        intro a ha
        have : (a : ℕ) ≠ ax := fun h => ha (Fin.ext h)
        have : ((a : ℕ) < ax + 1) ↔ ((a : ℕ) < ax) := by omega
        simp [q, this]
      have zsa : z.shape ax = y.shape ax := by rw [zs]; dsimp only; rw [hq]; simp
      obtain ⟨w, hw, wb, wc, ws, wd⟩ := haloPad1d_ok (y := z) hd (zb.trans hb) hL ax (p ax) (by rw [zsa]; exact hn ax)
        (by rw [zsa]; exact h1 ax) (by rw [zsa]; exact h2 ax)
      refine ⟨w, hw, wb.trans zb, wc.trans zc, ?_, ?_⟩
      · rw [ws, zsa, zs]
        funext a
        by_cases ha : a = ax
        · subst ha; rw [Function.update_self, hq']
        · rw [Function.update_of_ne ha, hqo a ha]
      · intro t j c ht hj
        have hja := hj ax
        dsimp only at hja
        rw [hq'] at hja
        rw [zsa] at wd
        push_cast at hja
        rw [wd t j c ht hja.1 (by omega)]
        set g : ℤ := (t ax * y.shape ax + (j ax - (p ax).1)) % ((L ax * y.shape ax : ℕ) : ℤ) with hg
        have hya : (0 : ℤ) < y.shape ax := by exact_mod_cast hn ax
        have hLa : (0 : ℤ) < L ax := by exact_mod_cast hL ax
        have g0 : 0 ≤ g := Int.emod_nonneg _ (by push_cast; positivity)
        have g1 : g < L ax * y.shape ax := by
          have := Int.emod_lt_of_pos (t ax * (y.shape ax : ℤ) + (j ax - (p ax).1)) (show (0:ℤ) < ((L ax * y.shape ax : ℕ) : ℤ) by push_cast; positivity)
          rw [← hg] at this; push_cast at this; exact this
        have k0 : 0 ≤ g / y.shape ax := Int.ediv_nonneg g0 hya.le
        have k1 : g / y.shape ax < L ax := Int.ediv_lt_of_lt_mul hya g1
        have l0 : 0 ≤ g % y.shape ax := Int.emod_nonneg _ hya.ne'
        have l1 : g % y.shape ax < y.shape ax := Int.emod_lt_of_pos _ hya
        rw [zd _ _ c]
        · have key : ∀ a, (Function.update t ax (g / y.shape ax) a * (y.shape a : ℤ) + (Function.update j ax (g % y.shape ax) a - ((q ax a).1 : ℤ))) % ((L a * y.shape a : ℕ) : ℤ)
              = (t a * y.shape a + (j a - ((q (ax + 1) a).1 : ℤ))) % ((L a * y.shape a : ℕ) : ℤ) := by
            intro a
            by_cases ha : a = ax
            · subst ha
              rw [Function.update_self, Function.update_self, hq, hq', ← hg]
              simp only [Nat.cast_zero, sub_zero]
              rw [Int.ediv_mul_add_emod]
              exact Int.emod_eq_of_lt g0 (by push_cast; exact g1)
            · rw [Function.update_of_ne ha, Function.update_of_ne ha, hqo a ha]
          simp only [key]
        · intro a
          by_cases ha : a = ax
          · subst ha; rw [Function.update_self]; exact ⟨k0, k1⟩
          · rw [Function.update_of_ne ha]; exact ht a
        · intro a
          by_cases ha : a = ax
          · subst ha
            rw [Function.update_self]
            dsimp only
            rw [hq]
            exact ⟨l0, by push_cast; omega⟩
          · rw [Function.update_of_ne ha]
            have := hj a
            dsimp only at this ⊢
            rw [hqo a ha] at this
            exact this) y
    (by
      refine ⟨rfl, rfl, by simp [q], ?_⟩
      intro t j c ht hj
      have key : ∀ a, ((t a * y.shape a + (j a - ((q 0 a).1 : ℤ))) % ((L a * y.shape a : ℕ) : ℤ)) / y.shape a = t a ∧
          ((t a * y.shape a + (j a - ((q 0 a).1 : ℤ))) % ((L a * y.shape a : ℕ) : ℤ)) % y.shape a = j a := by
        intro a
        have hja := hj a
        simp only [q, Nat.not_lt_zero, if_false, zero_add, add_zero] at hja
        have hq : (q 0 a).1 = 0 := by simp [q]
        rw [hq, Nat.cast_zero, sub_zero]
        obtain ⟨e1, e2⟩ := tile_mod (q := t a) (hL a) hja.1 hja.2
        exact ⟨e1.trans (Int.emod_eq_of_lt (ht a).1 (ht a).2), e2⟩
      simp only [key])
  have hqd : ∀ a, q d a = p a := fun a => by simp [q]
  simp only [hqd] at zs zd
  exact ⟨z, hz, zb, zc, zs, zd⟩

theorem haloPad1d_wide {y : Tiled d K} {L : Fin d → ℕ} (hd : tileRank d = true) (hb : y.batch = layoutSize L)
    (ax : Fin d) (p : ℕ × ℕ) (h : y.shape ax < p.1 ∨ y.shape ax < p.2) : haloPad1d y L ax p = .error .type := by
  unfold haloPad1d haloLeft
  by_cases h1 : y.shape ax < p.1
  · rw [if_neg (by omega)]
    unfold Tiled.dynamicSlice
    rw [if_pos h1]
    rfl
  · have h2 : y.shape ax < p.2 := h.resolve_left h1
    by_cases hp : p.1 = 0
    · rw [if_pos hp]
      simp only [bind, Except.bind]
      rw [if_neg (by omega)]
      unfold Tiled.dynamicSlice
      rw [if_pos h2]
    · rw [if_neg hp, dynamicSlice_ok (by omega) (by omega) (by omega)]
      simp only [bind, Except.bind]
      rw [tileRoll_ok hd (by exact hb)]
      simp only [pure, Except.pure]
      rw [if_neg (by omega)]
      unfold Tiled.dynamicSlice
      rw [if_pos h2]

theorem haloExchangePad_wide {y : Tiled d K} {L : Fin d → ℕ} (hd : tileRank d = true) (hb : y.batch = layoutSize L) (hL : ∀ a, 0 < L a)
    (p : Fin d → ℕ × ℕ) (hn : ∀ a, 0 < y.shape a) (h : ∃ a, y.shape a < (p a).1 ∨ y.shape a < (p a).2) :
    haloExchangePad y L p = .error .type := by
  classical
  let Q : ℕ → Prop := fun m => ∃ a : Fin d, (a : ℕ) = m ∧ (y.shape a < (p a).1 ∨ y.shape a < (p a).2)
  have hQ : ∃ m, Q m := h.elim fun a ha => ⟨a, a, rfl, ha⟩
  obtain ⟨m, hm, hbad⟩ := Nat.find_spec hQ
  have hmin : ∀ a : Fin d, a < m → (p a).1 ≤ y.shape a ∧ (p a).2 ≤ y.shape a := by
    intro a ha
    have := Nat.find_min hQ (m := a) (by rw [← hm]; exact ha)
    simp only [Q, not_exists, not_and, not_or, not_lt] at this
    exact this a rfl
  unfold haloExchangePad
  rw [verifyLayout_ok hb]
  simp only [bind, Except.bind]
  refine foldlM_finRange_error _ (fun k z => z.batch = y.batch ∧ ∀ a : Fin d, k ≤ a → z.shape a = y.shape a) m ?_ _ ?_ y ⟨rfl, fun _ _ => rfl⟩
  · rintro a x ha ⟨xb, xs⟩
    have xsa : x.shape a = y.shape a := xs a le_rfl
    obtain ⟨z, hz, zb, -, zs, -⟩ := haloPad1d_ok (y := x) hd (xb.trans hb) hL a (p a) (by rw [xsa]; exact hn a)
      (by rw [xsa]; exact (hmin a ha).1) (by rw [xsa]; exact (hmin a ha).2)
    refine ⟨z, hz, zb.trans xb, ?_⟩
    intro a' ha'
    rw [zs, Function.update_of_ne (by rintro rfl; omega)]
    exact xs a' (by omega)
  · rintro x ⟨xb, xs⟩
    apply haloPad1d_wide hd (xb.trans hb)
    rw [xs m le_rfl]
    exact hbad

theorem spaceToBatch_ok {x : Chan d K} {L : Fin d → ℕ} (hd : tileRank d = true) (hL : ∀ a, 0 < L a) (hdiv : ∀ a, L a ∣ x.shape a) :
    spaceToBatch x L = .ok
      { batch := layoutSize L
        shape := fun a => x.shape a / L a
        chan := x.chan
        data := fun b j c => x.data (fun a => tileIdx L b a * (x.shape a / L a : ℕ) + j a) c } := by
  unfold spaceToBatch
  rw [if_neg (by simp [hd]), if_neg (by rintro ⟨a, ha⟩; have := hL a; omega),
    if_neg (by rintro ⟨a, ha⟩; exact ha (Nat.mod_eq_zero_of_dvd (hdiv a)))]

theorem batchToSpace_ok {y : Tiled d K} {L : Fin d → ℕ} (hd : tileRank d = true) (hb : y.batch = layoutSize L) :
    batchToSpace y L = .ok
      { shape := fun a => L a * y.shape a
        chan := y.chan
        data := fun i c => y.data (tileNum L fun a => i a / y.shape a) (fun a => i a % y.shape a) c } := by
  unfold batchToSpace
  rw [if_neg (by simp [hd]), if_neg (by simpa using hb)]

/-- The tile of a position and the place in it. -/
theorem tile_of_pos {L n : Fin d → ℕ} {i : Idx d} (hi : InR (fun a => L a * n a) i) :
    InR L (fun a => i a / n a) ∧ InR n fun a => i a % n a := by
  constructor
  · intro a
    obtain ⟨h0, h1⟩ := hi a
    push_cast at h1
    have hn : (0 : ℤ) < n a := by
      by_contra hc
      have : (n a : ℤ) = 0 := by omega
      rw [this] at h1; simp at h1; omega
    exact ⟨Int.ediv_nonneg h0 hn.le, Int.ediv_lt_of_lt_mul hn h1⟩
  · intro a
    obtain ⟨h0, h1⟩ := hi a
    push_cast at h1
    have hn : (0 : ℤ) < n a := by
      by_contra hc
      have : (n a : ℤ) = 0 := by omega
      rw [this] at h1; simp at h1; omega
    exact ⟨Int.emod_nonneg _ hn.ne', Int.emod_lt_of_pos _ hn⟩

/-- Tiled convolution equals periodic convolution. -/
theorem applyConvolution_ok {k : Fin d → ℕ} {cout : ℕ} {F : (Idx d → ℤ → K) → ℤ → K} {conv : Tiled d K → Except Err (Tiled d K)}
    (x : Chan d K) (hc : ValidConv k x.chan cout F conv) (layout : Option (Fin d → ℕ)) (p : Fin d → ℕ × ℕ) (hd : tileRank d = true)
    (hx : ∀ a, 0 < x.shape a)
    (hL : ∀ a, 0 < (layout.getD fun _ => 1) a) (hdiv : ∀ a, (layout.getD fun _ => 1) a ∣ x.shape a)
    (hk : ∀ a, k a = (p a).1 + (p a).2 + 1)
    (h1 : ∀ a, (p a).1 ≤ x.shape a / (layout.getD fun _ => 1) a) (h2 : ∀ a, (p a).2 ≤ x.shape a / (layout.getD fun _ => 1) a) :
    ∃ z : Chan d K, applyConvolution conv x layout p = .ok z ∧ z.shape = x.shape ∧ z.chan = cout ∧
      ∀ (i : Idx d) (co : ℤ), InR x.shape i → 0 ≤ co → co < cout →
        z.data i co = F (fun o c => x.per (fun a => i a + o a - (p a).1) c) co := by
  unfold applyConvolution
  dsimp only
  generalize (layout.getD fun _ => 1) = L at *
  rw [spaceToBatch_ok hd hL hdiv]
  simp only [bind, Except.bind]
  have hn : ∀ a, 0 < x.shape a / L a := fun a => Nat.div_pos (Nat.le_of_dvd (hx a) (hdiv a)) (hL a)
  have hLn : ∀ a, L a * (x.shape a / L a) = x.shape a := fun a => Nat.mul_div_cancel' (hdiv a)
  obtain ⟨w, hw, wb, wc, ws, wd⟩ := haloExchangePad_ok (y := { batch := layoutSize L, shape := fun a => x.shape a / L a, chan := x.chan, data := fun b j c => x.data (fun a => tileIdx L b a * (x.shape a / L a : ℕ) + j a) c })
    hd rfl hL p hn h1 h2
  rw [hw]
  dsimp only at ws wd wb wc ⊢
  obtain ⟨v, hv, vb, vc, vs, vd⟩ := hc.apply w wc (fun a => by rw [ws, hk]; have := hn a; dsimp only; omega)
  rw [hv]
  dsimp only
  rw [batchToSpace_ok hd (vb.trans wb)]
  have vs' : ∀ a, v.shape a = x.shape a / L a := by
    intro a
    rw [vs, ws, hk]
    dsimp only
    generalize x.shape a / L a = n
    omega
  refine ⟨_, rfl, ?_, vc, ?_⟩
  · funext a
    dsimp only
    rw [vs', hLn]
  · intro i co hi c0 c1
    have hi' : InR (fun a => L a * (x.shape a / L a)) i := by
      simpa only [hLn] using hi
    obtain ⟨ht, hj⟩ := tile_of_pos hi'
    dsimp only
    have tb := tileNum_bounds ht
    simp only [vs']
    rw [vd _ _ co tb.1 (by rw [wb]; exact tb.2) (by intro a; rw [vs']; exact hj a) c0 c1]
    apply hc.window
    intro o c ho c0 c1
    have hoj : InR (fun a => (p a).1 + x.shape a / L a + (p a).2) fun a => i a % (x.shape a / L a : ℕ) + o a := by
      intro a
      have h3 := hj a
      have h4 := ho a
      rw [hk] at h4
      dsimp only at h3 ⊢
      push_cast at h4 ⊢
      rw [← Int.natCast_ediv]
      generalize i a % ((x.shape a / L a : ℕ) : ℤ) = r at *
      generalize x.shape a / L a = n at *
      omega
    rw [wd _ _ c ht hoj]
    unfold Chan.per
    rw [tileIdx_tileNum]
    · congr 1
      funext a
      rw [Int.ediv_mul_add_emod, hLn]
      congr 1
      have := Int.ediv_mul_add_emod (i a) (x.shape a / L a : ℕ)
      dsimp only
      omega
    · intro a
      have hpos : (0 : ℤ) < ((L a * (x.shape a / L a) : ℕ) : ℤ) := by rw [hLn]; exact_mod_cast hx a
      have hnp : (0 : ℤ) < ((x.shape a / L a : ℕ) : ℤ) := by exact_mod_cast hn a
      refine ⟨Int.ediv_nonneg (Int.emod_nonneg _ hpos.ne') hnp.le, Int.ediv_lt_of_lt_mul hnp ?_⟩
      have := Int.emod_lt_of_pos (i a / ((x.shape a / L a : ℕ) : ℤ) * ((x.shape a / L a : ℕ) : ℤ) + (i a % ((x.shape a / L a : ℕ) : ℤ) + o a - ((p a).1 : ℤ))) hpos
      rw [Nat.cast_mul] at this
      rw [Nat.cast_mul]
      exact this

end JaxCfd
