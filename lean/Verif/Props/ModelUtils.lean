import Verif.Model.ModelUtils
import Verif.Lemmas.ArrayUtils
import Verif.Props.TrainUtils
import Verif.Props.Metrics

/-! # C60: trajectories of learned models -/

namespace JaxCfd.ML
variable {d : ℕ} {K S Y : Type}

set_option linter.unusedSectionVars false

/-- `n` steps from `x`. -/
def reach (f : S → Except Err S) : ℕ → S → Except Err S
  | 0, x => .ok x
  | n + 1, x => f x >>= reach f n

theorem reach_add (f : S → Except Err S) (m n : ℕ) (x : S) : reach f (m + n) x = reach f m x >>= reach f n := by
  induction m generalizing x with
  | zero => simp [reach, bind, Except.bind]
  | succ m ih =>
    rw [Nat.add_right_comm]
    show (f x >>= reach f (m + n)) = (f x >>= reach f m) >>= reach f n
    cases h : f x with
    | error e => rfl
    | ok y => exact ih y

theorem reach_mul (f : S → Except Err S) (m n : ℕ) (x : S) : reach (reach f m) n x = reach f (m * n) x := by
  induction n generalizing x with
  | zero => rfl
  | succ n ih =>
    rw [Nat.mul_succ, Nat.add_comm (m * n) m, reach_add f m (m * n)]
    show (reach f m x >>= reach (reach f m) n) = _
    cases h : reach f m x with
    | error e => rfl
    | ok y => exact ih y

theorem repeated_eq (f : S → Except Err S) (n : ℕ) (x : S) : repeated f n x = reach f n x := by
  unfold repeated
  induction n generalizing x with
  | zero => rfl
  | succ n ih =>
    rw [List.replicate_succ]
    unfold laxScan reach
    cases h : f x with
    | error e => rfl
    | ok y =>
      have := ih y
      show ((do let r ← (do let s ← laxScan _ y (List.replicate n ()); pure (s.1, () :: s.2)); pure r.1) : Except Err S) = reach f n y
      rw [← this]
      cases laxScan (fun c (_ : Unit) => do
        let c' ← f c
        return (c', ())) y (List.replicate n ()) <;> rfl

theorem innerStep_eq (f : S → Except Err S) (n : ℕ) (x : S) : innerStep f n x = reach f n x := by
  unfold innerStep
  split
  · exact repeated_eq f n x
  · have : n = 1 := by omega
    subst this
    unfold reach
    cases h : f x with
    | error e => rfl
    | ok y => rfl

/-- A run of `n` steps visits states `t 0, .., t n`. -/
theorem reach_run {f : S → Except Err S} {n : ℕ} {x y : S} :
    reach f n x = .ok y ↔ ∃ t : ℕ → S, t 0 = x ∧ t n = y ∧ ∀ j < n, f (t j) = .ok (t (j + 1)) := by
  induction n generalizing x with
  | zero =>
    constructor
    · intro h
      exact ⟨fun _ => x, rfl, Except.ok.inj h, fun j hj => by omega⟩
    · rintro ⟨t, h0, h1, _⟩
      exact congrArg Except.ok (h0.symm.trans h1)
  | succ n ih =>
    constructor
    · intro h
      obtain ⟨z, hz, h⟩ := Except.bind_eq_ok.1 h
      obtain ⟨t, h0, h1, h2⟩ := ih.1 h
      refine ⟨fun j => if j = 0 then x else t (j - 1), rfl, by simpa using h1, ?_⟩
      intro j hj
      rcases j with _ | j
      · simpa [h0] using hz
      · simpa using h2 j (by omega)
    · rintro ⟨t, h0, h1, h2⟩
      refine Except.bind_eq_ok.2 ⟨t 1, h0 ▸ h2 0 (by omega), ih.2 ⟨fun j => t (j + 1), rfl, h1, ?_⟩⟩
      intro j hj
      exact h2 (j + 1) (by omega)

theorem run_reach {f : S → Except Err S} {n : ℕ} {t : ℕ → S} (h : ∀ j < n, f (t j) = .ok (t (j + 1))) {k m : ℕ} (hkm : k + m ≤ n) :
    reach f m (t k) = .ok (t (k + m)) :=
  reach_run.2 ⟨fun j => t (k + j), rfl, rfl, fun j hj => h (k + j) (by omega)⟩

/-- The scan of `trajectory_from_step`. -/
theorem scan_outer {f : S → Except Err S} {start : Bool} {post : S → Except Err Y} {n : ℕ} {x y : S} {fs : List Y} :
    laxScan (outerStep f start post) x (List.replicate n ()) = .ok (y, fs) ↔
      ∃ s : ℕ → S, s 0 = x ∧ s n = y ∧ fs.length = n ∧ (∀ j < n, f (s j) = .ok (s (j + 1))) ∧
        ∀ j (hj : j < fs.length), post (s (j + if start then 0 else 1)) = .ok fs[j] := by
  induction n generalizing x y fs with
  | zero =>
    constructor
    · intro h
      have := Prod.mk.inj (Except.ok.inj h)
      refine ⟨fun _ => x, rfl, this.1, by rw [← this.2]; rfl, fun j hj => by omega, ?_⟩
      intro j hj
      rw [← this.2] at hj
      simp at hj
    · rintro ⟨s, h0, h1, h2, _⟩
      rw [List.length_eq_zero_iff.1 h2, ← h1, h0]
      rfl
  | succ n ih =>
    rw [List.replicate_succ]
    unfold laxScan
    constructor
    · intro h
      obtain ⟨r, hr, h⟩ := Except.bind_eq_ok.1 h
      obtain ⟨q, hq, h⟩ := Except.bind_eq_ok.1 h
      have := Prod.mk.inj (Except.ok.inj h)
      obtain ⟨c', hc, hr⟩ := Except.bind_eq_ok.1 hr
      obtain ⟨p, hp, hr⟩ := Except.bind_eq_ok.1 hr
      have er := Except.ok.inj hr
      obtain ⟨s, s0, s1, s2, s3, s4⟩ := ih.1 (show _ = Except.ok (q.1, q.2) from hq)
      rw [← er] at s0
      refine ⟨fun j => if j = 0 then x else s (j - 1), rfl, by simpa using s1.trans this.1, ?_, ?_, ?_⟩
      · rw [← this.2]
        simp [s2]
      · intro j hj
        rcases j with _ | j
        · simpa [s0] using hc
        · simpa using s3 j (by omega)
      · intro j hj
        rcases j with _ | j
        · have e : fs[0] = p := by simp [← this.2, ← er]
          rw [e, ← hp]
          cases start
          · simp [s0]
          · simp
        · have hj' : j < q.2.length := by rw [← this.2] at hj; simpa using hj
          have e : fs[j + 1] = q.2[j] := by simp [← this.2]
          rw [e, ← s4 j hj']
          cases start
          · simp
          · simp
    · rintro ⟨s, s0, s1, s2, s3, s4⟩
      obtain ⟨p, fs', rfl⟩ : ∃ p fs', fs = p :: fs' := by
        cases fs with
        | nil => simp at s2
        | cons p fs' => exact ⟨p, fs', rfl⟩
      refine Except.bind_eq_ok.2 ⟨(s 1, p), ?_, Except.bind_eq_ok.2 ⟨(y, fs'), ?_, rfl⟩⟩
      · refine Except.bind_eq_ok.2 ⟨s 1, s0 ▸ s3 0 (by omega), Except.bind_eq_ok.2 ⟨p, ?_, rfl⟩⟩
        have := s4 0 (by simp)
        cases start
        · simpa using this
        · simpa [s0] using this
      · refine ih.2 ⟨fun j => s (j + 1), rfl, s1, by simpa using s2, fun j hj => s3 (j + 1) (by omega), ?_⟩
        intro j hj
        have := s4 (j + 1) (by simpa using hj)
        cases start
        · simpa using this
        · simpa using this

/-- `tr` is the stack of the frames `f 0, f 1, .., f (n - 1)`: one array per leaf of a frame, whose entry at time `t` is the leaf of
frame `t`. -/
def Stacked (tr : List (NArr (d + 1) K)) (n : ℕ) (f : ℕ → List (NArr d K)) : Prop :=
  ∀ t < n, (f t).length = tr.length ∧ ∀ k (hk : k < tr.length) (hk' : k < (f t).length),
    tr[k].shape = Fin.cons n (f t)[k].shape ∧ ∀ i : Idx d, tr[k].data (Fin.cons (t : ℤ) i) = (f t)[k].data i

theorem stackFrames_ok {proto : List (NArr d K)} {frames : List (List (NArr d K))} {tr : List (NArr (d + 1) K)}
    (h : stackFrames proto frames = .ok tr) :
    tr.length = proto.length ∧ (∀ k (hk : k < tr.length), tr[k].shape 0 = frames.length) ∧
    (∀ fr ∈ frames, fr.map NArr.shape = proto.map NArr.shape) ∧
    Stacked tr frames.length fun t => (frames[t]?).getD [] := by
  unfold stackFrames at h
  split at h
  case isFalse => cases h
  case isTrue hs =>
    have e := Except.ok.inj h
    have hl : tr.length = proto.length := by rw [← e]; simp
    refine ⟨hl, ?_, hs, ?_⟩
    · intro k hk
      simp only [← e, List.getElem_ofFn]
      rfl
    · intro t ht
      have hfr : (frames[t]?).getD [] = frames[t] := by simp [List.getElem?_eq_getElem ht]
      beta_reduce
      rw [hfr]
      have hsh := hs frames[t] (List.getElem_mem ht)
      have hlen : frames[t].length = proto.length := by
        have := congrArg List.length hsh
        simpa using this
      refine ⟨by omega, ?_⟩
      intro k hk hk'
      have hk0 : k < proto.length := by omega
      have hshk : frames[t][k].shape = proto[k].shape := by
        have : (frames[t].map NArr.shape)[k]'(by simpa using hk') = (proto.map NArr.shape)[k]'(by simpa using hk0) := by
          simp only [hsh]
        simpa using this
      simp only [← e, List.getElem_ofFn]
      constructor
      · show _ = Fin.cons _ _
        rw [hshk]
        rfl
      · intro i
        simp [List.getElem?_eq_getElem ht, List.getElem?_eq_getElem hk']

/-- **C60** `trajectory_from_step`: the final state is reached by `outer * inner` applications of the step function, one after the
other; the trajectory has `outer` frames, and frame `i` is the post-processed state after `inner * (i + 1)` steps
(`inner * i` with `start_with_input`). -/
theorem C60_trajectory (step : S → Except Err S) (outer inner : ℕ) (start : Bool) (post : S → Except Err (List (NArr d K))) (x y : S)
    (tr : List (NArr (d + 1) K)) (h : trajectoryFromStep step outer inner start post x = .ok (y, tr)) :
    ∃ (s : ℕ → S) (f : ℕ → List (NArr d K)), s 0 = x ∧ s (inner * outer) = y ∧ (∀ j < inner * outer, step (s j) = .ok (s (j + 1))) ∧
      (∀ t < outer, post (s (inner * (t + if start then 0 else 1))) = .ok (f t)) ∧ Stacked tr outer f ∧
      ∀ k (hk : k < tr.length), tr[k].shape 0 = outer := by
  unfold trajectoryFromStep at h
  obtain ⟨proto, hp, h⟩ := Except.bind_eq_ok.1 h
  obtain ⟨r, hr, h⟩ := Except.bind_eq_ok.1 h
  obtain ⟨tr', ht, h⟩ := Except.bind_eq_ok.1 h
  have e := Prod.mk.inj (Except.ok.inj h)
  obtain ⟨q, q0, q1, q2, q3, q4⟩ := scan_outer.1 (show _ = Except.ok (r.1, r.2) from hr)
  have hreach : reach step (inner * outer) x = .ok y := by
    rw [← reach_mul]
    refine reach_run.2 ⟨q, q0, q1.trans e.1, ?_⟩
    intro j hj
    rw [← innerStep_eq]
    exact q3 j hj
  obtain ⟨s, s0, s1, s2⟩ := reach_run.1 hreach
  have hq : ∀ j ≤ outer, q j = s (inner * j) := by
    intro j hj
    have h1 : reach step (inner * j) x = .ok (q j) := by
      rw [← reach_mul]
      refine reach_run.2 ⟨q, q0, rfl, ?_⟩
      intro i hi
      rw [← innerStep_eq]
      exact q3 i (by omega)
    have h2 := run_reach s2 (k := 0) (m := inner * j) (by rw [Nat.zero_add]; exact Nat.mul_le_mul_left _ hj)
    rw [s0, h1, Nat.zero_add] at h2
    exact Except.ok.inj h2
  obtain ⟨_, ha, _, hb⟩ := stackFrames_ok ht
  refine ⟨s, fun t => (r.2[t]?).getD [], s0, s1, s2, ?_, ?_, ?_⟩
  · intro t ht
    have ht' : t < r.2.length := by omega
    have := q4 t ht'
    rw [hq _ (by split <;> omega)] at this
    rw [this]
    simp [List.getElem?_eq_getElem ht']
  · rw [← e.2]
    rw [q2] at hb
    exact hb
  · rw [q2] at ha
    rw [← e.2]
    exact ha

/-- **C60** `trajectory_from_step` succeeds if the `outer * inner` steps and the post-processing of the saved states do, and the frames
have the same shapes. -/
theorem C60_trajectory_succeeds (step : S → Except Err S) (outer inner : ℕ) (ho : 0 < outer) (start : Bool)
    (post : S → Except Err (List (NArr d K))) (x : S) (s : ℕ → S) (f : ℕ → List (NArr d K)) (h0 : s 0 = x)
    (hstep : ∀ j < inner * outer, step (s j) = .ok (s (j + 1)))
    (hpost : ∀ t < outer, post (s (inner * (t + if start then 0 else 1))) = .ok (f t))
    (hshape : ∀ t < outer, (f t).map NArr.shape = (f 0).map NArr.shape) :
    ∃ tr, trajectoryFromStep step outer inner start post x = .ok (s (inner * outer), tr) := by
  have hin : ∀ j < outer, innerStep step inner (s (inner * j)) = .ok (s (inner * (j + 1))) := by
    intro j hj
    rw [innerStep_eq, Nat.mul_succ]
    refine run_reach hstep ?_
    rw [← Nat.mul_succ]
    exact Nat.mul_le_mul_left _ hj
  have hscan : laxScan (outerStep (innerStep step inner) start post) x (List.replicate outer ()) =
      .ok (s (inner * outer), List.ofFn fun t : Fin outer => f t) := by
    refine scan_outer.2 ⟨fun j => s (inner * j), by simpa using h0, rfl, by simp, hin, ?_⟩
    intro j hj
    simp only [List.getElem_ofFn]
    exact hpost j (by simpa using hj)
  have hproto : outerStep (innerStep step inner) start post x () = .ok (s (inner * 1), f 0) := by
    refine Except.bind_eq_ok.2 ⟨s (inner * 1), ?_, Except.bind_eq_ok.2 ⟨f 0, ?_, rfl⟩⟩
    · have := hin 0 ho
      simpa [h0] using this
    · have := hpost 0 ho
      cases start
      · simpa using this
      · simpa [h0] using this
  have hst : ∃ tr, stackFrames (f 0) (List.ofFn fun t : Fin outer => f t) = .ok tr := by
    unfold stackFrames
    rw [if_pos]
    · exact ⟨_, rfl⟩
    · intro fr hfr
      obtain ⟨t, ht⟩ := (List.mem_ofFn' _ _).1 hfr
      rw [← ht]
      exact hshape t t.2
  obtain ⟨tr, htr⟩ := hst
  exact ⟨tr, Except.bind_eq_ok.2 ⟨_, hproto, Except.bind_eq_ok.2 ⟨_, hscan, Except.bind_eq_ok.2 ⟨tr, htr, rfl⟩⟩⟩⟩

/-! ## Physics-space trajectories -/

/-- `a` holds the first `n` frames of `x` (all of them if there are fewer). -/
def FirstFrames (n : ℕ) (x a : NArr (d + 1) K) : Prop :=
  a.shape = Function.update x.shape 0 (min n (x.shape 0)) ∧ ∀ i : Idx (d + 1), InR a.shape i → a.data i = x.data i

theorem slice_first (n : ℕ) (x : NArr (d + 1) K) : FirstFrames n x (sliceAx x 0 ⟨some 0, some (n : ℤ), 1⟩) := by
  constructor
  · show Function.update x.shape 0 (PySlice.len _ _) = _
    congr 1
    simp only [PySlice.len, PySlice.hi, PySlice.lo, Option.map_some, Option.getD_some, clipBound]
    split_ifs <;> omega
  · intro i _
    show x.data (Function.update i 0 (PySlice.lo _ _ + i 0 * ((1 : ℕ) : ℤ))) = x.data i
    congr 1
    have : PySlice.lo ⟨some 0, some (n : ℤ), 1⟩ (x.shape 0) = 0 := by simp [PySlice.lo, clipBound]
    rw [this]
    simp

theorem splitInput_eq_ok {n : ℕ} {x init : List (NArr (d + 1) K)} (h : splitInput n x = .ok init) :
    List.Forall₂ (FirstFrames n) x init := by
  unfold splitInput at h
  split at h
  · cases h
  · rw [← Except.ok.inj h, List.forall₂_map_right_iff]
    exact List.forall₂_same.2 fun a _ => slice_first n a

/-- `r` is `x` followed in time by `u`. -/
def Follows (r x u : NArr (d + 1) K) : Prop :=
  (∀ b : Fin (d + 1), b ≠ 0 → u.shape b = x.shape b) ∧ r.shape = Function.update x.shape 0 (x.shape 0 + u.shape 0) ∧
  ∀ i : Idx (d + 1), (i 0 < x.shape 0 → r.data i = x.data i) ∧
    (¬ i 0 < x.shape 0 → r.data i = u.data (Function.update i 0 (i 0 - x.shape 0)))

theorem concatN_eq_ok {x u r : NArr (d + 1) K} : concatN 0 x [u] = .ok r → Follows r x u := by
  intro h
  unfold concatN at h
  split at h
  case isFalse => cases h
  case isTrue hs =>
    have e := Except.ok.inj h
    refine ⟨fun b hb => hs u (by simp) b hb, by rw [← e]; simp, ?_⟩
    intro i
    rw [← e]
    constructor
    · intro hi
      show concatData 0 x [u] i = _
      rw [concatData, if_pos hi]
    · intro hi
      show concatData 0 x [u] i = _
      rw [concatData, if_neg hi, concatData]

theorem concatN_ok {x u : NArr (d + 1) K} (h : ∀ b : Fin (d + 1), b ≠ 0 → u.shape b = x.shape b) :
    concatN 0 x [u] = .ok ⟨Function.update x.shape 0 (([x, u].map fun y => y.shape 0).sum), concatData 0 x [u]⟩ := by
  unfold concatN
  rw [if_pos]
  · intro y hy
    rw [List.mem_singleton] at hy
    subst hy
    exact h

theorem includeInput_eq_ok {x u out : List (NArr (d + 1) K)} (h : includeInput x u = .ok out) :
    x.length = u.length ∧ out.length = x.length ∧
      ∀ k (h1 : k < out.length) (h2 : k < x.length) (h3 : k < u.length), Follows out[k] x[k] u[k] := by
  unfold includeInput at h
  split at h
  case isFalse => cases h
  case isTrue hl =>
    have := (mapM_eq_ok _ _ _).1 h
    obtain ⟨e1, e2⟩ := forall2_getElem this
    have hz : (x.zip u).length = x.length := by simp [hl]
    refine ⟨hl, by omega, ?_⟩
    intro k h1 h2 h3
    have := e2 k (by omega) h1
    simp only [List.getElem_zip] at this
    exact concatN_eq_ok this

/-- **C60** `decoded_trajectory_with_inputs(model, n)(x, outer, inner)`: the model state is encoded from the first `n` frames of `x`
only and advanced `outer * inner` times; every component of the result has the first `n` frames of that component of `x` unchanged,
followed by `outer` frames: the decoded states after `inner, 2 * inner, .., outer * inner` steps.  The first returned value is
the final model state. -/
theorem C60_decoded (M : System d K S) (n : ℕ) (x : List (NArr (d + 1) K)) (outer inner : ℕ) (y : S) (out : List (NArr (d + 1) K))
    (h : decodedTrajectory M n x outer inner = .ok (y, out)) :
    ∃ (init : List (NArr (d + 1) K)) (s : ℕ → S) (f : ℕ → List (NArr d K)),
      List.Forall₂ (FirstFrames n) x init ∧ M.encode init = .ok (s 0) ∧ (∀ j < inner * outer, M.advance (s j) = .ok (s (j + 1))) ∧
      y = s (inner * outer) ∧ (∀ t < outer, M.decode (s (inner * (t + 1))) = .ok (f t)) ∧ out.length = x.length ∧
      ∀ k (hk : k < out.length) (hk' : k < x.length),
        out[k].shape = Function.update x[k].shape 0 (min n (x[k].shape 0) + outer) ∧
        (∀ i : Idx (d + 1), InR out[k].shape i → i 0 < min n (x[k].shape 0) → out[k].data i = x[k].data i) ∧
        ∀ t < outer, ∃ a, (f t)[k]? = some a ∧ (∀ b, a.shape b = x[k].shape b.succ) ∧
          ∀ i : Idx d, out[k].data (Fin.cons (min n (x[k].shape 0) + t : ℤ) i) = a.data i := by
  unfold decodedTrajectory at h
  obtain ⟨init, hi, h⟩ := Except.bind_eq_ok.1 h
  obtain ⟨st, hst, h⟩ := Except.bind_eq_ok.1 h
  obtain ⟨r, hr, h⟩ := Except.bind_eq_ok.1 h
  obtain ⟨o, ho, h⟩ := Except.bind_eq_ok.1 h
  have e := Prod.mk.inj (Except.ok.inj h)
  obtain ⟨s, f, s0, s1, s2, s3, s4, s5⟩ := C60_trajectory _ _ _ _ _ _ _ _ (show _ = Except.ok (r.1, r.2) from hr)
  have hf := splitInput_eq_ok hi
  obtain ⟨l1, l2, l3⟩ := includeInput_eq_ok ho
  obtain ⟨l4, l5⟩ := forall2_getElem hf
  obtain rfl : o = out := e.2
  refine ⟨init, s, f, hf, s0 ▸ hst, s2, (s1.trans e.1).symm, ?_, by omega, ?_⟩
  · intro t ht
    simpa using s3 t ht
  · intro k hk hk'
    have hki : k < init.length := by omega
    have hkr : k < r.2.length := by omega
    obtain ⟨c1, c2, c3⟩ := l3 k hk hki hkr
    obtain ⟨d1, d2⟩ := l5 k hk' hki
    have hi0 : init[k].shape 0 = min n (x[k].shape 0) := by rw [d1]; simp
    have hio : ∀ b : Fin (d + 1), b ≠ 0 → init[k].shape b = x[k].shape b := by
      intro b hb
      rw [d1, Function.update_of_ne hb]
    have hr0 : r.2[k].shape 0 = outer := s5 k hkr
    refine ⟨?_, ?_, ?_⟩
    · rw [c2, hi0, hr0, d1, Function.update_idem]
    · intro i hin hlt
      rw [(c3 i).1 (by rw [hi0]; exact_mod_cast hlt)]
      refine d2 i ?_
      intro b
      by_cases hb : b = 0
      · subst hb
        exact ⟨(hin 0).1, by rw [hi0]; exact_mod_cast hlt⟩
      · have := hin b
        rw [c2, Function.update_of_ne hb] at this
        exact this
    · intro t ht
      obtain ⟨g1, g2⟩ := s4 t ht
      have hkf : k < (f t).length := by omega
      obtain ⟨g3, g4⟩ := g2 k hkr hkf
      refine ⟨(f t)[k], List.getElem?_eq_getElem hkf, ?_, ?_⟩
      · intro b
        rw [← hio b.succ (Fin.succ_ne_zero b), ← c1 b.succ (Fin.succ_ne_zero b), g3]
        rfl
      · intro i
        have hm : ((min n (x[k].shape 0) : ℕ) : ℤ) = min (n : ℤ) (x[k].shape 0 : ℤ) := by push_cast; rfl
        rw [(c3 _).2 (by rw [hi0, hm]; show ¬ (min (n : ℤ) (x[k].shape 0) + t : ℤ) < _; omega), ← g4 i]
        congr 1
        rw [hi0, hm]
        funext b
        refine Fin.cases ?_ (fun b => ?_) b
        · rw [Function.update_self]
          show (min (n : ℤ) (x[k].shape 0) + t : ℤ) - min (n : ℤ) (x[k].shape 0) = t
          omega
        · rw [Function.update_of_ne (Fin.succ_ne_zero b)]
          rfl

/-- The first `n` frames of the two trajectories exist and are the same. -/
def SameFirstFrames (n : ℕ) (x x' : NArr (d + 1) K) : Prop :=
  n ≤ x.shape 0 ∧ n ≤ x'.shape 0 ∧ (∀ b : Fin (d + 1), b ≠ 0 → x.shape b = x'.shape b) ∧
  ∀ i : Idx (d + 1), InR x.shape i → i 0 < n → x.data i = x'.data i

/-- **C60** A prediction does not look at the frames it is compared with: trajectories with the same first `n` frames give the same
final state and the same result, whatever the later frames (and their number) are.  (The encoder is only assumed to depend on the
contents of the arrays it is given.) -/
theorem C60_causal (M : System d K S) (henc : ∀ a b, List.Forall₂ NArr.Eqv a b → M.encode a = M.encode b) (n : ℕ)
    (x x' : List (NArr (d + 1) K)) (hx : List.Forall₂ (SameFirstFrames n) x x') (outer inner : ℕ) (y : S) (out : List (NArr (d + 1) K))
    (h : decodedTrajectory M n x outer inner = .ok (y, out)) :
    ∃ out', decodedTrajectory M n x' outer inner = .ok (y, out') ∧ List.Forall₂ NArr.Eqv out out' := by
  unfold decodedTrajectory at h
  obtain ⟨init, hi, h⟩ := Except.bind_eq_ok.1 h
  obtain ⟨st, hst, h⟩ := Except.bind_eq_ok.1 h
  obtain ⟨r, hr, h⟩ := Except.bind_eq_ok.1 h
  obtain ⟨o, ho, h⟩ := Except.bind_eq_ok.1 h
  have e := Prod.mk.inj (Except.ok.inj h)
  obtain rfl : o = out := e.2
  have hne : x' ≠ [] := by
    rintro rfl
    rw [List.forall₂_nil_right_iff] at hx
    subst hx
    unfold splitInput at hi
    rw [if_pos rfl] at hi
    cases hi
  obtain ⟨init', hi'⟩ : ∃ init', splitInput (n : ℤ) x' = .ok init' := by
    unfold splitInput
    rw [if_neg hne]
    exact ⟨_, rfl⟩
  obtain ⟨k1, k2⟩ := forall2_getElem hx
  have hf := splitInput_eq_ok hi
  have hf' := splitInput_eq_ok hi'
  obtain ⟨l1, l2⟩ := forall2_getElem hf
  obtain ⟨m1, m2⟩ := forall2_getElem hf'
  have heqv : ∀ k (h1 : k < init.length) (h2 : k < init'.length), init[k].Eqv init'[k] := by
    intro k h1 h2
    obtain ⟨a1, a2, a3, a4⟩ := k2 k (by omega) (by omega)
    obtain ⟨b1, b2⟩ := l2 k (by omega) h1
    obtain ⟨c1, c2⟩ := m2 k (by omega) h2
    have hs : init[k].shape = init'[k].shape := by
      rw [b1, c1]
      funext b
      by_cases hb : b = 0
      · subst hb
        simp [a1, a2]
      · rw [Function.update_of_ne hb, Function.update_of_ne hb, a3 b hb]
    refine ⟨hs, ?_⟩
    intro i hi
    rw [b2 i hi, c2 i (hs ▸ hi)]
    have hi0 := hi 0
    rw [b1, Function.update_self] at hi0
    refine a4 i ?_ (by omega)
    intro b
    by_cases hb : b = 0
    · subst hb
      omega
    · have := hi b
      rw [b1, Function.update_of_ne hb] at this
      exact this
  have hlen : init.length = init'.length := by omega
  have henc' : M.encode init' = .ok st := by
    rw [← henc init init' (forall2_of_getElem hlen heqv)]
    exact hst
  obtain ⟨p1, p2, p3⟩ := includeInput_eq_ok ho
  have hout : ∃ out', includeInput init' r.2 = .ok out' := by
    unfold includeInput
    rw [if_pos (by omega)]
    refine ⟨_, Metric.mapM_ok_map _ (fun p => ⟨Function.update p.1.shape 0 (([p.1, p.2].map fun y => y.shape 0).sum), concatData 0 p.1 [p.2]⟩) _ ?_⟩
    · intro p hp
      obtain ⟨k, hk, rfl⟩ := List.getElem_of_mem hp
      have hk1 : k < init'.length := by simp at hk; omega
      have hk2 : k < r.2.length := by simp at hk; omega
      simp only [List.getElem_zip]
      refine concatN_ok ?_
      intro b hb
      rw [(p3 k (by omega) (by omega) hk2).1 b hb, (heqv k (by omega) hk1).1]
  obtain ⟨out', hout⟩ := hout
  obtain ⟨q1, q2, q3⟩ := includeInput_eq_ok hout
  refine ⟨out', ?_, forall2_of_getElem (by omega) ?_⟩
  · unfold decodedTrajectory
    rw [hi', Except.bind_ok, henc', Except.bind_ok, hr, Except.bind_ok, hout, ← e.1]
    rfl
  · intro k h1 h2
    obtain ⟨a1, a2, a3⟩ := p3 k h1 (by omega) (by omega)
    obtain ⟨b1, b2, b3⟩ := q3 k h2 (by omega) (by omega)
    obtain ⟨e1, e2⟩ := heqv k (by omega) (by omega)
    refine ⟨by rw [a2, b2, e1], ?_⟩
    intro i hin
    by_cases hlt : i 0 < init[k].shape 0
    · rw [(a3 i).1 hlt, (b3 i).1 (by rw [← e1]; exact hlt)]
      refine e2 i ?_
      intro b
      by_cases hb : b = 0
      · subst hb
        exact ⟨(hin 0).1, hlt⟩
      · have := hin b
        rw [a2, Function.update_of_ne hb] at this
        exact this
    · rw [(a3 i).2 hlt, (b3 i).2 (by rw [← e1]; exact hlt), e1]

/-! ## Losses of predictions -/

open JaxCfd.Metric in
/-- **C60** The frames a prediction was made from do not count: comparing the decoded trajectory of a target of `n + outer` frames with
that target, `l2_loss_cumulative` is the squared error of the `outer` predicted frames alone. -/
theorem C60_loss (M : System d ℝ S) (n : ℕ) (x : List (NArr (d + 1) ℝ)) (outer inner : ℕ) (y : S) (out : List (NArr (d + 1) ℝ))
    (hT : Metric.Frames x 0 (n + outer)) (hne : x ≠ []) (h : decodedTrajectory M n x outer inner = .ok (y, out)) (scale : ℝ) :
    l2LossCumulative out x none scale 0 = .ok (scale * sqErr 0 (fun t => (n : ℤ) ≤ t) out x) := by
  obtain ⟨init, s, f, -, -, -, -, -, hl, hk⟩ := C60_decoded M n x outer inner y out h
  have hm : Matching out x := by
    refine ⟨by rintro rfl; exact hne (List.length_eq_zero_iff.1 hl.symm), forall2_of_getElem hl ?_⟩
    intro k h1 h2
    obtain ⟨e, -⟩ := hk k h1 h2
    have hx0 := hT _ (List.getElem_mem h2)
    rw [e, hx0, Nat.min_eq_left (by omega)]
    rw [show n + outer = x[k].shape 0 from hx0.symm, Function.update_eq_self]
  have hshape : ∀ k (h1 : k < out.length) (h2 : k < x.length), out[k].shape = x[k].shape :=
    fun k h1 h2 => (forall2_getElem hm.2).2 k h1 h2
  have hFr : Metric.Frames out 0 (n + outer) := by
    intro a ha
    obtain ⟨k, hk, rfl⟩ := List.getElem_of_mem ha
    rw [hshape k hk (by omega)]
    exact hT _ (List.getElem_mem _)
  rw [C54_l2_cumulative out x hm 0 0 (by unfold Denotes normalizeAxis; rw [dif_pos (by constructor <;> push_cast <;> omega)]; rfl) (n + outer) hFr none scale]
  congr 2
  unfold sqErr
  congr 1
  refine List.map_congr_left fun p hp => ?_
  obtain ⟨k, hkz, rfl⟩ := List.getElem_of_mem hp
  have h1 : k < out.length := by simp at hkz; omega
  have h2 : k < x.length := by omega
  simp only [List.getElem_zip]
  have hx0 := hT _ (List.getElem_mem h2)
  symm
  refine Finset.sum_subset ?_ ?_
  · intro i hi
    rw [Finset.mem_filter] at hi ⊢
    refine ⟨hi.1, ?_⟩
    have := mem_box.1 hi.1 0
    rw [hshape k h1 h2, hx0] at this
    exact_mod_cast this.2
  · intro i hi hni
    rw [Finset.mem_filter] at hi hni
    have hlt : i 0 < n := by
      by_contra hc
      exact hni ⟨hi.1, not_lt.1 hc⟩
    rw [(hk k h1 h2).2.1 i (mem_box.1 hi.1) (by rw [hx0]; omega), sub_self]
    ring

/-! ## Time integration of learned derivatives -/

section Euler
variable {V : Type} [Field K] [AddCommGroup V] [Module K V]

/-- **C60** `euler_integrator`: the trajectory consists of the states after `1, .., n` steps, the last of which is also the final
state; each state is the previous one plus `dt` times the derivative there. -/
theorem C60_euler (deriv : V → Except Err V) (x y : V) (dt : K) (n : ℕ) (tr : List V) :
    eulerIntegrator deriv x dt n = .ok (y, tr) ↔
      ∃ s : ℕ → V, s 0 = x ∧ s n = y ∧ tr = (List.range n).map (fun j => s (j + 1)) ∧
        ∀ j < n, ∃ k, deriv (s j) = .ok k ∧ s (j + 1) = s j + dt • k := by
  have key : eulerIntegrator deriv x dt n =
      laxScan (outerStep (fun c => do
        let k ← deriv c
        return c + dt • k) false (fun c => .ok c)) x (List.replicate n ()) := by
    unfold eulerIntegrator
    congr 1
    funext c u
    unfold outerStep
    cases h : deriv c <;> simp only [h] <;> rfl
  rw [key, scan_outer]
  refine exists_congr fun s => and_congr_right fun _ => and_congr_right fun _ => ?_
  constructor
  · rintro ⟨h1, h2, h3⟩
    refine ⟨?_, ?_⟩
    · refine List.ext_getElem (by simp [h1]) ?_
      intro j hj hj'
      have := Except.ok.inj (h3 j hj)
      simpa using this.symm
    · intro j hj
      obtain ⟨k, hk, e⟩ := Except.bind_eq_ok.1 (h2 j hj)
      exact ⟨k, hk, (Except.ok.inj e).symm⟩
  · rintro ⟨h1, h2⟩
    refine ⟨by simp [h1], ?_, ?_⟩
    · intro j hj
      obtain ⟨k, hk, e⟩ := h2 j hj
      exact Except.bind_eq_ok.2 ⟨k, hk, congrArg Except.ok e.symm⟩
    · intro j hj
      simp [h1]

/-- **C60** A step of `time_derivative_network_model` is one forward Euler step with the derivative
`modules(x) + forcing(x)`, the modules being applied in the order they are listed. -/
theorem C60_time_derivative (modules : List (V → Except Err V)) (forcing : V → Except Err V) (dt : K) (x y : V) :
    timeDerivativeStep modules forcing dt x = .ok y ↔
      ∃ (z : ℕ → V) (f : V), z 0 = x ∧ (∀ j (hj : j < modules.length), modules[j] (z j) = .ok (z (j + 1))) ∧ forcing x = .ok f ∧
        y = x + dt • (z modules.length + f) := by
  have hfold : ∀ (l : List (V → Except Err V)) (a b : V), l.foldlM (fun a m => m a) a = .ok b ↔
      ∃ z : ℕ → V, z 0 = a ∧ z l.length = b ∧ ∀ j (hj : j < l.length), l[j] (z j) = .ok (z (j + 1)) := by
    intro l
    induction l with
    | nil =>
      intro a b
      constructor
      · intro h
        exact ⟨fun _ => a, rfl, Except.ok.inj h, fun j hj => by simp at hj⟩
      · rintro ⟨z, h0, h1, _⟩
        exact congrArg Except.ok (h0.symm.trans h1)
    | cons m l ih =>
      intro a b
      rw [List.foldlM_cons, Except.bind_eq_ok]
      constructor
      · rintro ⟨c, hc, h⟩
        obtain ⟨z, z0, z1, z2⟩ := (ih c b).1 h
        refine ⟨fun j => if j = 0 then a else z (j - 1), rfl, by simpa using z1, ?_⟩
        intro j hj
        rcases j with _ | j
        · simpa [z0] using hc
        · simpa using z2 j (by simpa using hj)
      · rintro ⟨z, z0, z1, z2⟩
        refine ⟨z 1, z0 ▸ z2 0 (by simp), (ih _ _).2 ⟨fun j => z (j + 1), rfl, z1, ?_⟩⟩
        intro j hj
        exact z2 (j + 1) (by simpa using hj)
  unfold timeDerivativeStep
  rw [Except.bind_eq_ok]
  constructor
  · rintro ⟨r, hr, e⟩
    obtain ⟨s, s0, s1, -, s3⟩ := (C60_euler _ _ _ _ _ _).1 (show _ = Except.ok (r.1, r.2) from hr)
    obtain ⟨k, hk, e2⟩ := s3 0 (by omega)
    obtain ⟨f, hf, hk⟩ := Except.bind_eq_ok.1 hk
    obtain ⟨w, hw, hk⟩ := Except.bind_eq_ok.1 hk
    obtain ⟨z, z0, z1, z2⟩ := (hfold _ _ _).1 hw
    refine ⟨z, f, z0.trans s0, z2, s0 ▸ hf, ?_⟩
    have e3 := Except.ok.inj e
    rw [← e3, ← s1, e2, s0, z1, Except.ok.inj hk]
  · rintro ⟨z, f, z0, z1, hf, e⟩
    refine ⟨(y, [y]), (C60_euler _ _ _ _ _ _).2 ⟨fun j => if j = 0 then x else y, rfl, rfl, rfl, ?_⟩, rfl⟩
    intro j hj
    obtain rfl : j = 0 := by omega
    exact ⟨z modules.length + f, Except.bind_eq_ok.2 ⟨f, hf, Except.bind_eq_ok.2 ⟨_, (hfold _ _ _).2 ⟨z, z0, rfl, z1⟩, rfl⟩⟩, e⟩

/-- **C60** For a linear derivative `A`, `n` steps of `euler_integrator` apply `(1 + dt A)ⁿ`. -/
theorem C60_euler_linear (A : V →ₗ[K] V) (x : V) (dt : K) (n : ℕ) :
    ∃ tr, eulerIntegrator (fun v => .ok (A v)) x dt n = .ok (((1 + dt • A : V →ₗ[K] V) ^ n) x, tr) ∧ tr.length = n ∧
      ∀ j (hj : j < tr.length), tr[j] = ((1 + dt • A : V →ₗ[K] V) ^ (j + 1)) x := by
  refine ⟨(List.range n).map (fun j => ((1 + dt • A : V →ₗ[K] V) ^ (j + 1)) x), (C60_euler _ _ _ _ _ _).2
    ⟨fun j => ((1 + dt • A : V →ₗ[K] V) ^ j) x, by simp, rfl, rfl, ?_⟩, by simp, by simp⟩
  intro j hj
  refine ⟨_, rfl, ?_⟩
  beta_reduce
  rw [pow_succ']
  simp

end Euler

/-- **C60** `identity_model` predicts persistence: every state of its trajectory is the initial one. -/
theorem C60_identity (outer inner : ℕ) (start : Bool) (post : S → Except Err (List (NArr d K))) (x y : S) (tr : List (NArr (d + 1) K))
    (h : trajectoryFromStep identityModel outer inner start post x = .ok (y, tr)) :
    y = x ∧ ∀ t < outer, ∃ f, post x = .ok f ∧ ∀ k (hk : k < tr.length), ∃ a, f[k]? = some a ∧
      ∀ i : Idx d, tr[k].data (Fin.cons (t : ℤ) i) = a.data i := by
  obtain ⟨s, f, s0, s1, s2, s3, s4, -⟩ := C60_trajectory _ _ _ _ _ _ _ _ h
  have hs : ∀ j ≤ inner * outer, s j = x := by
    intro j hj
    induction j with
    | zero => exact s0
    | succ j ih =>
      have := Except.ok.inj (s2 j (by omega))
      rw [← this]
      exact ih (by omega)
  refine ⟨by rw [← s1]; exact hs _ (Nat.le_refl _), ?_⟩
  intro t ht
  refine ⟨f t, ?_, ?_⟩
  · rw [← s3 t ht, hs]
    exact Nat.mul_le_mul_left _ (by split <;> omega)
  · intro k hk
    obtain ⟨h1, h2⟩ := s4 t ht
    have hk' : k < (f t).length := by omega
    exact ⟨(f t)[k], List.getElem?_eq_getElem hk', (h2 k hk hk').2⟩

/-! ## Non-vacuity -/

/-- A model on one real-valued cell: the state is the sum of the frames it was encoded from and doubles in every step. -/
noncomputable def doubling : System 1 ℝ ℝ where
  encode xs := .ok (xs.map NArr.sum).sum
  decode s := .ok [⟨fun _ => 1, fun _ => s⟩]
  advance s := .ok (2 * s)

/-- five frames `1, 2, 3, 4, 5`; from the first two (sum 3) two predictions with two inner steps: `12, 48` -/
example : ∃ out, decodedTrajectory doubling 2 [⟨![5, 1], fun i => (i 0 : ℝ) + 1⟩] 2 2 = .ok (48, [out]) ∧ out.shape = ![4, 1] ∧
    out.data ![0, 0] = 1 ∧ out.data ![1, 0] = 2 ∧ out.data ![2, 0] = 12 ∧ out.data ![3, 0] = 48 := by
  have hs : NArr.sum (sliceAx (⟨![5, 1], fun i => (i 0 : ℝ) + 1⟩ : NArr 2 ℝ) 0 ⟨some 0, some 2, 1⟩) = 3 := by
    have hbox : box (Function.update ![5, 1] 0 2 : Fin 2 → ℕ) = {![0, 0], ![1, 0]} := by decide
    show ∑ i ∈ box (Function.update ![5, 1] 0 2 : Fin 2 → ℕ), _ = _
    rw [hbox, Finset.sum_pair (by decide)]
    norm_num [sliceAx, PySlice.lo, clipBound]
  obtain ⟨out, e⟩ : ∃ out, decodedTrajectory doubling 2 [⟨![5, 1], fun i => (i 0 : ℝ) + 1⟩] 2 2 =
      .ok (2 * (2 * (2 * (2 * ([NArr.sum (sliceAx (⟨![5, 1], fun i => (i 0 : ℝ) + 1⟩ : NArr 2 ℝ) 0 ⟨some 0, some 2, 1⟩)].sum)))), [out]) :=
    ⟨_, rfl⟩
  rw [List.sum_singleton, hs, show (2 * (2 * (2 * (2 * 3))) : ℝ) = 48 by norm_num] at e
  obtain ⟨-, s, f, -, -, h2, h3, h4, -, h5⟩ := C60_decoded doubling 2 _ 2 2 _ _ e
  have hs1 : ∀ j < 4, s (j + 1) = 2 * s j := fun j hj => (Except.ok.inj (h2 j hj)).symm
  have hf : ∀ t < 2, f t = [⟨fun _ => 1, fun _ => s (2 * (t + 1))⟩] := fun t ht => (Except.ok.inj (h4 t ht)).symm
  have h34 : s 4 = 48 := h3.symm
  have h12 : s 2 = 12 := by
    have a := hs1 3 (by omega)
    have b := hs1 2 (by omega)
    norm_num at a b
    linarith
  obtain ⟨k1, k2, k3⟩ := h5 0 (by simp) (by simp)
  have k1' : out.shape = Function.update ![5, 1] 0 4 := k1
  refine ⟨out, e, ?_, ?_, ?_, ?_, ?_⟩
  · rw [k1']
    decide
  · have := k2 ![0, 0] (by show InR out.shape _; rw [k1']; unfold InR; decide) (by decide)
    norm_num at this
    exact this
  · have := k2 ![1, 0] (by show InR out.shape _; rw [k1']; unfold InR; decide) (by decide)
    norm_num at this
    exact this
  · obtain ⟨a, ha, -, hd⟩ := k3 0 (by omega)
    rw [hf 0 (by omega)] at ha
    have ha := Option.some.inj ha
    have := hd ![0]
    rw [← ha] at this
    exact this.trans h12
  · obtain ⟨a, ha, -, hd⟩ := k3 1 (by omega)
    rw [hf 1 (by omega)] at ha
    have ha := Option.some.inj ha
    have := hd ![0]
    rw [← ha] at this
    exact this.trans h34

end JaxCfd.ML
