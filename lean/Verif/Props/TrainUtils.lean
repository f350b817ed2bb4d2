import Verif.Model.TrainUtils
import Verif.Lemmas.ArrayUtils
import Mathlib.Algebra.BigOperators.Group.List.Basic
import Mathlib.Tactic.Linarith
import Mathlib.Tactic.FieldSimp

/-!
# C53: training loop bookkeeping
-/

namespace JaxCfd.Train
variable {d : ℕ}

/-! ## Specification vocabulary -/

/-- `dict.get(k)`. -/
noncomputable def get (m : Metrics) (k : String) : Option ℝ := m.lookup k

/-- The dict has each key once (as every Python dict). -/
def IsDict (m : Metrics) : Prop := (m.map Prod.fst).Nodup

/-- The sum of the values of key `k`; batches without the key contribute nothing. -/
noncomputable def keySum (ms : List Metrics) (k : String) : ℝ := (ms.map fun m => (get m k).getD 0).sum

/-! ## Dictionaries -/

theorem get_nil (k : String) : get [] k = none := rfl

theorem get_cons (k' : String) (x : ℝ) (m : Metrics) (k : String) : get ((k', x) :: m) k = if k = k' then some x else get m k := by
  unfold get
  rw [List.lookup_cons]
  by_cases h : k = k'
  · subst h; simp
  · rw [if_neg h, beq_false_of_ne h]

theorem get_isSome {m : Metrics} {k : String} : (get m k).isSome ↔ k ∈ m.map Prod.fst := by
  induction m with
  | nil => simp [get_nil]
  | cons kv m ih =>
    obtain ⟨k', x⟩ := kv
    rw [get_cons, List.map_cons, List.mem_cons, ← ih]
    by_cases h : k = k' <;> simp [h]

theorem get_addTo (m : Metrics) (k k' : String) (v : ℝ) :
    get (addTo m k v) k' = if k' = k then some ((get m k).getD 0 + v) else get m k' := by
  induction m with
  | nil => rw [addTo, get_cons]; simp [get_nil]
  | cons kv m ih =>
    obtain ⟨l, x⟩ := kv
    rw [addTo]
    by_cases h : l = k
    · subst h
      rw [if_pos rfl, get_cons, get_cons]
      by_cases h' : k' = l
      · subst h'; simp [get_cons]
      · rw [if_neg h', if_neg h', get_cons, if_neg h']
    · rw [if_neg h, get_cons, get_cons, get_cons, ih]
      by_cases h' : k' = k
      · subst h'
        simp [Ne.symm h]
      · simp [h']

theorem keys_addTo (m : Metrics) (k : String) (v : ℝ) :
    (addTo m k v).map Prod.fst = if k ∈ m.map Prod.fst then m.map Prod.fst else m.map Prod.fst ++ [k] := by
  induction m with
  | nil => simp [addTo]
  | cons kv m ih =>
    obtain ⟨l, x⟩ := kv
    rw [addTo]
    by_cases h : l = k
    · subst h; simp
    · rw [if_neg h, List.map_cons, ih]
      by_cases h' : k ∈ m.map Prod.fst
      · rw [if_pos h', if_pos (by rw [List.map_cons]; exact List.mem_cons_of_mem _ h'), List.map_cons]
      · rw [if_neg h', if_neg (by rw [List.map_cons, List.mem_cons]; rintro (e | e); exacts [h e.symm, h' e]), List.map_cons]
        rfl

theorem isDict_addTo {m : Metrics} (h : IsDict m) (k : String) (v : ℝ) : IsDict (addTo m k v) := by
  unfold IsDict at *
  rw [keys_addTo]
  split_ifs with h'
  · exact h
  · exact List.Nodup.append h (List.nodup_singleton k) (by simpa using h')

theorem foldl_addTo {b : Metrics} (hb : IsDict b) {a : Metrics} (ha : IsDict a) :
    IsDict (b.foldl (fun acc kv => addTo acc kv.1 kv.2) a) ∧
    ∀ k, get (b.foldl (fun acc kv => addTo acc kv.1 kv.2) a) k =
      if (get a k).isSome ∨ (get b k).isSome then some ((get a k).getD 0 + (get b k).getD 0) else none := by
  induction b generalizing a with
  | nil =>
    refine ⟨ha, fun k => ?_⟩
    rw [List.foldl_nil, get_nil]
    cases get a k <;> simp
  | cons kv b ih =>
    obtain ⟨l, x⟩ := kv
    have hl : l ∉ b.map Prod.fst := (List.nodup_cons.1 hb).1
    obtain ⟨h1, h2⟩ := ih (List.nodup_cons.1 hb).2 (isDict_addTo ha l x)
    refine ⟨h1, fun k => ?_⟩
    rw [List.foldl_cons, h2 k, get_addTo, get_cons]
    by_cases h : k = l
    · subst h
      have : get b k = none := by
        rw [← Option.not_isSome_iff_eq_none, get_isSome]
        exact hl
      simp [this]
    · simp only [if_neg h]

theorem get_map_div (m : Metrics) (c : ℝ) (k : String) : get (m.map fun kv => (kv.1, kv.2 / c)) k = (get m k).map (· / c) := by
  induction m with
  | nil => rfl
  | cons kv m ih =>
    obtain ⟨l, x⟩ := kv
    rw [List.map_cons, get_cons, get_cons, ih]
    by_cases h : k = l <;> simp [h]

theorem forall₂_mem_right {α β : Type} {R : α → β → Prop} {l : List α} {r : List β} (h : List.Forall₂ R l r) {y : β} (hy : y ∈ r) :
    ∃ x ∈ l, R x y := by
  induction h with
  | nil => cases hy
  | cons h1 _ ih =>
    rcases List.mem_cons.1 hy with rfl | hy
    · exact ⟨_, List.mem_cons_self, h1⟩
    · obtain ⟨x, hx, hxy⟩ := ih hy
      exact ⟨x, List.mem_cons_of_mem _ hx, hxy⟩

/-! ## streaming_mean -/

theorem foldlM_streaming {B : Type} (evalFn : B → Except Err Metrics) (bs : List B) (s : Metrics × ℕ) :
    bs.foldlM (streamingStep evalFn) s = (do
      let ms ← bs.mapM evalFn
      return (ms.foldl (fun acc m => m.foldl (fun acc kv => addTo acc kv.1 kv.2) acc) s.1, s.2 + ms.length)) := by
  induction bs generalizing s with
  | nil => simp only [List.foldlM_nil, List.mapM_nil]; rfl
  | cons b bs ih =>
    rw [List.foldlM_cons, List.mapM_cons]
    unfold streamingStep
    cases hb : evalFn b with
    | error e => rfl
    | ok m =>
      rw [Except.bind_ok, Except.bind_ok]
      show List.foldlM (streamingStep evalFn) (m.foldl (fun acc kv => addTo acc kv.1 kv.2) s.1, s.2 + 1) bs = _
      rw [ih]
      cases bs.mapM evalFn with
      | error e => rfl
      | ok ms =>
        rw [Except.bind_ok, Except.bind_ok]
        show Except.ok _ = Except.ok _
        rw [List.length_cons, List.foldl_cons]
        congr 2
        ring

theorem foldl_dicts (ms : List Metrics) (hm : ∀ m ∈ ms, IsDict m) {a : Metrics} (ha : IsDict a) :
    IsDict (ms.foldl (fun acc m => m.foldl (fun acc kv => addTo acc kv.1 kv.2) acc) a) ∧
    ∀ k, get (ms.foldl (fun acc m => m.foldl (fun acc kv => addTo acc kv.1 kv.2) acc) a) k =
      if (get a k).isSome ∨ ∃ m ∈ ms, (get m k).isSome then some ((get a k).getD 0 + keySum ms k) else none := by
  induction ms generalizing a with
  | nil =>
    refine ⟨ha, fun k => ?_⟩
    rw [List.foldl_nil]
    unfold keySum
    cases get a k <;> simp
  | cons m ms ih =>
    obtain ⟨h1, h2⟩ := foldl_addTo (hm m (List.mem_cons_self)) ha
    obtain ⟨h3, h4⟩ := ih (fun x hx => hm x (List.mem_cons_of_mem _ hx)) h1
    refine ⟨h3, fun k => ?_⟩
    rw [List.foldl_cons, h4 k, h2 k]
    unfold keySum
    rw [List.map_cons, List.sum_cons]
    by_cases hk : (get a k).isSome ∨ (get m k).isSome
    · rw [if_pos hk]
      rw [if_pos (Or.inl (Option.isSome_some)), if_pos]
      · rw [Option.getD_some, add_assoc]
      · rcases hk with hk | hk
        · exact Or.inl hk
        · exact Or.inr ⟨m, List.mem_cons_self, hk⟩
    · rw [if_neg hk]
      push Not at hk
      have e1 : get a k = none := by simpa using hk.1
      have e2 : get m k = none := by simpa using hk.2
      simp [e1, e2]

/-- **C53.** `streaming_mean` evaluates every batch once and returns, for exactly the metrics some batch reports, the sum of the reported
values divided by the number of batches.  It raises `RuntimeError` on an empty stream and passes on the errors of the evaluation. -/
theorem C53_streaming_mean {B : Type} (batches : List B) (evalFn : B → Except Err Metrics) (hd : ∀ b m, evalFn b = .ok m → IsDict m) :
    (batches = [] → streamingMean batches evalFn = .error .runtime) ∧
    (∀ e, batches.mapM evalFn = .error e → streamingMean batches evalFn = .error e) ∧
    ∀ ms, batches ≠ [] → batches.mapM evalFn = .ok ms → ∃ r, streamingMean batches evalFn = .ok r ∧ IsDict r ∧
      ∀ k, get r k = if ∃ m ∈ ms, (get m k).isSome then some (keySum ms k / batches.length) else none := by
  refine ⟨?_, fun e he => ?_, fun ms hne hms => ?_⟩
  · rintro rfl
    unfold streamingMean
    rw [List.foldlM_nil]
    rfl
  · unfold streamingMean
    rw [foldlM_streaming, he]
    rfl
  · have hlen : ms.length = batches.length := ((mapM_eq_ok _ _ _).1 hms).length_eq.symm
    have hdict : ∀ m ∈ ms, IsDict m := fun m hm => by
      obtain ⟨b, -, hb⟩ := forall₂_mem_right ((mapM_eq_ok _ _ _).1 hms) hm
      exact hd b m hb
    obtain ⟨h1, h2⟩ := foldl_dicts ms hdict (a := []) (by unfold IsDict; simp)
    refine ⟨_, by
      unfold streamingMean
      rw [foldlM_streaming, hms, Except.bind_ok]
      show (if 0 + ms.length = 0 then _ else _) = _
      rw [if_neg (by rw [zero_add, hlen]; simpa using hne)], ?_, fun k => ?_⟩
    · unfold IsDict at *
      rw [List.map_map]
      exact h1
    · rw [get_map_div, h2 k, get_nil]
      simp only [Option.isSome_none, Bool.false_eq_true, false_or, Option.getD_none, zero_add, hlen]
      split_ifs <;> rfl

/-- **C53.** The result does not depend on the order of the batches: every permutation of the stream gives a dict with the same entries. -/
theorem C53_order_independent {B : Type} (batches batches' : List B) (evalFn : B → Except Err Metrics) (hp : batches.Perm batches')
    (hd : ∀ b m, evalFn b = .ok m → IsDict m) (r : Metrics) (hr : streamingMean batches evalFn = .ok r) :
    ∃ r', streamingMean batches' evalFn = .ok r' ∧ ∀ k, get r' k = get r k := by
  obtain ⟨h1, h2, h3⟩ := C53_streaming_mean batches evalFn hd
  obtain ⟨-, -, h3'⟩ := C53_streaming_mean batches' evalFn hd
  have hne : batches ≠ [] := fun h => by rw [h1 h] at hr; cases hr
  have hne' : batches' ≠ [] := fun h => hne (by rw [h] at hp; exact hp.eq_nil)
  obtain ⟨ms, hms⟩ : ∃ ms, batches.mapM evalFn = .ok ms := by
    cases hm : batches.mapM evalFn with
    | error e => rw [h2 e hm] at hr; cases hr
    | ok ms => exact ⟨ms, rfl⟩
  obtain ⟨r0, hr0, -, hk⟩ := h3 ms hne hms
  rw [hr] at hr0
  injection hr0 with hr0
  subst hr0
  have hall := (mapM_eq_ok _ _ _).1 hms
  obtain ⟨ms', hms', hperm⟩ : ∃ ms', List.Forall₂ (fun x y => evalFn x = .ok y) batches' ms' ∧ ms.Perm ms' := by
    obtain ⟨ms', hp', hf⟩ := List.perm_comp_forall₂ (r := fun x y => evalFn x = .ok y) hp.symm hall
    exact ⟨ms', hp', hf.symm⟩
  obtain ⟨r', hr', -, hk'⟩ := h3' ms' hne' ((mapM_eq_ok _ _ _).2 hms')
  refine ⟨r', hr', fun k => ?_⟩
  rw [hk k, hk' k]
  have e1 : keySum ms' k = keySum ms k := (hperm.map _).sum_eq.symm
  have e2 : (∃ m ∈ ms', (get m k).isSome) ↔ ∃ m ∈ ms, (get m k).isSome :=
    exists_congr fun m => and_congr_left fun _ => hperm.mem_iff.symm
  rw [e1, hp.length_eq]
  simp only [e2]

/-- **C53.** A metric every batch reports: its mean lies between the smallest and the largest reported value, and a constant metric is
returned unchanged. -/
theorem C53_mean_bounds {B : Type} (batches : List B) (evalFn : B → Except Err Metrics) (hd : ∀ b m, evalFn b = .ok m → IsDict m)
    (r : Metrics) (hr : streamingMean batches evalFn = .ok r) (k : String) (lo hi : ℝ)
    (hk : ∀ b ∈ batches, ∀ m, evalFn b = .ok m → ∃ x, get m k = some x ∧ lo ≤ x ∧ x ≤ hi) :
    ∃ x, get r k = some x ∧ lo ≤ x ∧ x ≤ hi := by
  obtain ⟨h1, h2, h3⟩ := C53_streaming_mean batches evalFn hd
  have hne : batches ≠ [] := fun h => by rw [h1 h] at hr; cases hr
  obtain ⟨ms, hms⟩ : ∃ ms, batches.mapM evalFn = .ok ms := by
    cases hm : batches.mapM evalFn with
    | error e => rw [h2 e hm] at hr; cases hr
    | ok ms => exact ⟨ms, rfl⟩
  obtain ⟨r0, hr0, -, hg⟩ := h3 ms hne hms
  rw [hr] at hr0
  injection hr0 with hr0
  subst hr0
  have hall := (mapM_eq_ok _ _ _).1 hms
  have hlen : ms.length = batches.length := hall.length_eq.symm
  have hm : ∀ m ∈ ms, ∃ x, get m k = some x ∧ lo ≤ x ∧ x ≤ hi := fun m hm => by
    obtain ⟨b, hb, hbm⟩ := forall₂_mem_right hall hm
    exact hk b hb m hbm
  have hpos : 0 < ms.length := by rw [hlen]; exact List.length_pos_iff.2 hne
  have hpos' : (0 : ℝ) < ms.length := by exact_mod_cast hpos
  have hb : (ms.length : ℝ) * lo ≤ keySum ms k ∧ keySum ms k ≤ ms.length * hi := by
    clear hg hms hall hlen hpos hpos'
    unfold keySum
    induction ms with
    | nil => simp
    | cons m ms ih =>
      obtain ⟨x, hx, hl, hh⟩ := hm m List.mem_cons_self
      obtain ⟨i1, i2⟩ := ih (fun m' hm' => hm m' (List.mem_cons_of_mem _ hm'))
      rw [List.map_cons, List.sum_cons, hx, Option.getD_some, List.length_cons]
      push_cast
      constructor <;> linarith
  obtain ⟨m, hmm⟩ := List.exists_mem_of_length_pos hpos
  obtain ⟨x, hx, -⟩ := hm m hmm
  refine ⟨keySum ms k / batches.length, ?_, ?_, ?_⟩
  · rw [hg k, if_pos ⟨m, hmm, by rw [hx]; rfl⟩]
  · rw [← hlen, le_div_iff₀ hpos']; linarith [hb.1]
  · rw [← hlen, div_le_iff₀ hpos']; linarith [hb.2]

/-! ## train_step -/

/-- **C53.** Running `train_step` over a sequence of batches numbers the steps consecutively: started at step `n` the `j`-th update is made
with step number `n + j` and the gradient of batch `j` at the current parameters, and the losses are returned in order. -/
theorem C53_train_steps {P G O T : Type} (lossAndGrad : P → T → Except Err (ℝ × G)) (update : ℤ → G → O → Except Err O)
    (getParams : O → Except Err P) (ts : List T) (n : ℤ) (o : O) (s : ℤ × O) (losses : List ℝ) :
    ts.foldlM (fun (a : (ℤ × O) × List ℝ) t => do
      let r ← trainStep lossAndGrad update getParams a.1 t
      return (r.1, a.2 ++ [r.2])) ((n, o), []) = .ok (s, losses) ↔
    s.1 = n + ts.length ∧ losses.length = ts.length ∧ ∃ os : ℕ → O, os 0 = o ∧ os ts.length = s.2 ∧
      ∀ j (hj : j < ts.length), ∃ p g l, getParams (os j) = .ok p ∧ lossAndGrad p ts[j] = .ok (l, g) ∧ losses[j]? = some l ∧
        update (n + j) g (os j) = .ok (os (j + 1)) := by
  have key : ∀ (ts : List T) (n : ℤ) (o : O) (s : ℤ × O) (pre losses : List ℝ),
      ts.foldlM (fun (a : (ℤ × O) × List ℝ) t => do
        let r ← trainStep lossAndGrad update getParams a.1 t
        return (r.1, a.2 ++ [r.2])) ((n, o), pre) = .ok (s, losses) ↔
      ∃ ls, losses = pre ++ ls ∧ s.1 = n + ts.length ∧ ls.length = ts.length ∧ ∃ os : ℕ → O, os 0 = o ∧ os ts.length = s.2 ∧
      ∀ j (hj : j < ts.length), ∃ p g l, getParams (os j) = .ok p ∧ lossAndGrad p ts[j] = .ok (l, g) ∧ ls[j]? = some l ∧
        update (n + j) g (os j) = .ok (os (j + 1)) := by
    intro ts
    induction ts with
    | nil =>
      intro n o s pre losses
      rw [List.foldlM_nil]
      constructor
      · intro h
        have h := Except.ok.inj h
        obtain ⟨rfl, rfl⟩ := Prod.mk.inj h
        exact ⟨[], by simp, by simp, rfl, fun _ => o, rfl, rfl, fun j hj => absurd hj (by simp)⟩
      · rintro ⟨ls, rfl, h1, h2, os, h3, h4, -⟩
        have : ls = [] := List.length_eq_zero_iff.1 h2
        subst this
        rw [List.append_nil]
        refine congrArg Except.ok (Prod.ext (Prod.ext ?_ ?_) rfl)
        · rw [h1]; simp
        · rw [← h4, ← h3]; rfl
    | cons t ts ih =>
      intro n o s pre losses
      rw [List.foldlM_cons]
      constructor
      · intro h
        obtain ⟨a, ha, h⟩ := Except.bind_eq_ok.1 h
        obtain ⟨r, hr, ha⟩ := Except.bind_eq_ok.1 ha
        have ha := Except.ok.inj ha
        subst ha
        unfold trainStep at hr
        obtain ⟨p, hp, hr⟩ := Except.bind_eq_ok.1 hr
        obtain ⟨⟨l, g⟩, hl, hr⟩ := Except.bind_eq_ok.1 hr
        obtain ⟨o', ho, hr⟩ := Except.bind_eq_ok.1 hr
        have hr := Except.ok.inj hr
        subst hr
        obtain ⟨ls, h1, h2, h3, os, h4, h5, h6⟩ := (ih (n + 1) o' s (pre ++ [l]) losses).1 h
        refine ⟨l :: ls, by rw [h1, List.append_assoc]; rfl, by rw [h2, List.length_cons]; push_cast; ring, by simp [h3],
          fun j => if j = 0 then o else os (j - 1), by simp, by simp [h5], fun j hj => ?_⟩
        cases j with
        | zero => exact ⟨p, g, l, by simpa using hp, by simpa using hl, rfl, by simpa [h4] using ho⟩
        | succ j =>
          obtain ⟨p', g', l', e1, e2, e3, e4⟩ := h6 j (by simpa using hj)
          refine ⟨p', g', l', by simpa using e1, by simpa using e2, by simpa using e3, ?_⟩
          have : n + 1 + (j : ℤ) = n + ((j + 1 : ℕ) : ℤ) := by push_cast; ring
          rw [this] at e4
          simpa using e4
      · rintro ⟨ls, h1, h2, h3, os, h4, h5, h6⟩
        obtain ⟨p, g, l, e1, e2, e3, e4⟩ := h6 0 (by simp)
        cases ls with
        | nil => simp at h3
        | cons l' ls =>
          have e3 : l' = l := by simpa using e3
          subst e3
          have hstep : trainStep lossAndGrad update getParams (n, o) t = .ok ((n + 1, os 1), l') := by
            unfold trainStep
            rw [← h4, e1, Except.bind_ok]
            have e2 : lossAndGrad p t = .ok (l', g) := e2
            rw [e2, Except.bind_ok]
            have e4 : update n g (os 0) = .ok (os 1) := by simpa using e4
            show ((update n g (os 0)).bind _) = _
            rw [e4]
            rfl
          rw [hstep, Except.bind_ok]
          show List.foldlM _ ((n + 1, os 1), pre ++ [l']) ts = _
          refine (ih (n + 1) (os 1) s (pre ++ [l']) losses).2 ⟨ls, by rw [h1, List.append_assoc]; rfl,
            by rw [h2, List.length_cons]; push_cast; ring, by simpa using h3, fun j => os (j + 1), rfl, by simpa using h5, fun j hj => ?_⟩
          obtain ⟨p', g', l'', f1, f2, f3, f4⟩ := h6 (j + 1) (by simpa using hj)
          refine ⟨p', g', l'', f1, by simpa using f2, by simpa using f3, ?_⟩
          have : n + 1 + (j : ℤ) = n + ((j + 1 : ℕ) : ℤ) := by push_cast; ring
          rw [this]
          exact f4
  rw [key ts n o s [] losses]
  constructor
  · rintro ⟨ls, rfl, h1, h2, h3⟩
    exact ⟨h1, h2, h3⟩
  · rintro ⟨h1, h2, h3⟩
    exact ⟨losses, rfl, h1, h2, h3⟩

/-! ## Losses and evaluation -/

/-- **C53** The function that `loss_and_gradient` differentiates: with the parameters `p` it is the loss of the predicted trajectory
(first argument) against the target (second argument), the prediction being made from the target; the first value the trajectory
function returns is not used. -/
theorem C53_loss {P V : Type} (trajectory : P → V → Except Err (V × V)) (lossFn : V → V → Except Err ℝ) (p : P) (target : V) (l : ℝ) :
    loss trajectory lossFn p target = .ok l ↔
      ∃ final predicted, trajectory p target = .ok (final, predicted) ∧ lossFn predicted target = .ok l := by
  unfold loss
  rw [Except.bind_eq_ok]
  constructor
  · rintro ⟨r, h1, h2⟩
    exact ⟨r.1, r.2, h1, h2⟩
  · rintro ⟨a, b, h1, h2⟩
    exact ⟨(a, b), h1, h2⟩

/-- **C53** `eval_batch` with metrics of distinct names predicts once and returns a dict with exactly those names, in their order; the
entry of a name is that metric of the predicted trajectory (first argument) and the target (second argument). -/
theorem C53_eval_batch {P V : Type} (trajectory : P → V → Except Err (V × V)) (metrics : List (String × (V → V → Except Err ℝ)))
    (hd : (metrics.map Prod.fst).Nodup) (p : P) (target : V) (m : Metrics) :
    evalBatch trajectory metrics p target = .ok m ↔
      ∃ final predicted, trajectory p target = .ok (final, predicted) ∧ m.map Prod.fst = metrics.map Prod.fst ∧ IsDict m ∧
        ∀ km ∈ metrics, ∃ x, km.2 predicted target = .ok x ∧ get m km.1 = some x := by
  have key : ∀ (pred : V) (ms : List (String × (V → V → Except Err ℝ))) (m : Metrics), (ms.map Prod.fst).Nodup →
      ((ms.mapM fun km => do
        let x ← km.2 pred target
        return (km.1, x)) = Except.ok m ↔
      m.map Prod.fst = ms.map Prod.fst ∧ ∀ km ∈ ms, ∃ x, km.2 pred target = .ok x ∧ get m km.1 = some x) := by
    intro pred ms
    induction ms with
    | nil =>
      intro m _
      rw [List.mapM_nil]
      constructor
      · intro h
        rw [← Except.ok.inj h]
        exact ⟨rfl, by simp⟩
      · rintro ⟨h, -⟩
        rw [List.map_eq_nil_iff.1 h]
        rfl
    | cons km ms ih =>
      intro m hn
      rw [List.map_cons, List.nodup_cons] at hn
      rw [List.mapM_cons, Except.bind_eq_ok]
      constructor
      · rintro ⟨kx, h1, h⟩
        obtain ⟨x, hx, h1⟩ := Except.bind_eq_ok.1 h1
        obtain ⟨m', h2, h⟩ := Except.bind_eq_ok.1 h
        obtain ⟨e1, e2⟩ := (ih m' hn.2).1 h2
        rw [← Except.ok.inj h, ← Except.ok.inj h1]
        refine ⟨by rw [List.map_cons, e1, List.map_cons], ?_⟩
        intro km' hkm
        rcases List.mem_cons.1 hkm with rfl | hkm
        · exact ⟨x, hx, by rw [get_cons, if_pos rfl]⟩
        · obtain ⟨y, hy, hg⟩ := e2 km' hkm
          refine ⟨y, hy, ?_⟩
          rw [get_cons, if_neg, hg]
          intro hc
          exact hn.1 (hc ▸ List.mem_map_of_mem hkm)
      · rintro ⟨h1, h2⟩
        obtain ⟨kx, m', rfl⟩ : ∃ kx m', m = kx :: m' := by
          cases m with
          | nil => simp at h1
          | cons kx m' => exact ⟨kx, m', rfl⟩
        rw [List.map_cons, List.map_cons] at h1
        obtain ⟨ek, em⟩ := List.cons.inj h1
        obtain ⟨x, hx, hg⟩ := h2 km (by simp)
        obtain ⟨k', y⟩ := kx
        have ek : k' = km.1 := ek
        subst ek
        rw [get_cons, if_pos rfl] at hg
        have hxy := Option.some.inj hg
        subst hxy
        refine ⟨(km.1, y), Except.bind_eq_ok.2 ⟨y, hx, rfl⟩, Except.bind_eq_ok.2 ⟨m', (ih m' hn.2).2 ⟨em, ?_⟩, rfl⟩⟩
        intro km' hkm
        obtain ⟨z, hz, hg⟩ := h2 km' (by simp [hkm])
        refine ⟨z, hz, ?_⟩
        rw [get_cons, if_neg] at hg
        · exact hg
        · intro hc
          exact hn.1 (hc ▸ List.mem_map_of_mem hkm)
  unfold evalBatch
  rw [Except.bind_eq_ok]
  constructor
  · rintro ⟨r, h1, h2⟩
    obtain ⟨h3, h4⟩ := (key r.2 metrics m hd).1 h2
    exact ⟨r.1, r.2, h1, h3, by unfold IsDict; rw [h3]; exact hd, h4⟩
  · rintro ⟨a, b, h1, h3, -, h4⟩
    exact ⟨(a, b), h1, (key b metrics m hd).2 ⟨h3, h4⟩⟩

/-! ## preprocess -/

theorem preprocess_prefix {D R Y : Type} (data : Iter D) (rng : Iter R) (f : D → R → Except Err Y) (n : ℕ) (x : ℕ → D) (r : ℕ → R) (y : ℕ → Y)
    (hx : ∀ i < n, data i = some (x i)) (hr : ∀ i < n, rng i = some (r i)) (hf : ∀ i < n, f (x i) (r i) = .ok (y i)) (i : ℕ) (hi : i < n) :
    preprocessNth data rng f i = (.yields (y i), ⟨i + 1, i + 1, false⟩) := by
  induction i with
  | zero =>
    unfold preprocessNth preprocessNext
    simp only [Bool.false_eq_true, if_false, hx 0 hi, hr 0 hi, hf 0 hi]
  | succ i ih =>
    unfold preprocessNth
    rw [ih (by omega)]
    unfold preprocessNext
    simp only [Bool.false_eq_true, if_false, hx _ hi, hr _ hi, hf _ hi]

/-- **C53.** As long as both iterators provide items, the `i`-th item `preprocess` yields is the preprocessing of item `i` of the data with
item `i` of the random stream. -/
theorem C53_preprocess {D R Y : Type} (data : Iter D) (rng : Iter R) (f : D → R → Except Err Y) (x : ℕ → D) (r : ℕ → R) (y : ℕ → Y) (n : ℕ)
    (hx : ∀ i < n, data i = some (x i)) (hr : ∀ i < n, rng i = some (r i)) (hf : ∀ i < n, f (x i) (r i) = .ok (y i)) (i : ℕ) (hi : i < n) :
    (preprocessNth data rng f i).1 = .yields (y i) := by
  rw [preprocess_prefix data rng f n x r y hx hr hf i hi]

/-- **C53** (a defect). When the data end after `n` batches, `preprocess` yields the `n` preprocessed batches and then raises
`RuntimeError`, instead of ending: no `for` loop over a finite data set terminates normally. -/
theorem C53_preprocess_end_defect {D R Y : Type} (data : Iter D) (rng : Iter R) (f : D → R → Except Err Y) (x : ℕ → D) (r : ℕ → R)
    (y : ℕ → Y) (n : ℕ) (hx : ∀ i < n, data i = some (x i)) (hend : data n = none) (hr : ∀ i, rng i = some (r i))
    (hf : ∀ i < n, f (x i) (r i) = .ok (y i)) :
    (∀ i < n, (preprocessNth data rng f i).1 = .yields (y i)) ∧ (preprocessNth data rng f n).1 = .raises .runtime ∧
      ∀ k, (preprocessNth data rng f (n + 1 + k)).1 = .stops := by
  have hpre := preprocess_prefix data rng f n x r y hx (fun i _ => hr i) hf
  have hn : preprocessNth data rng f n = (.raises .runtime, ⟨n + 1, n, true⟩) := by
    cases n with
    | zero =>
      unfold preprocessNth preprocessNext
      simp only [Bool.false_eq_true, if_false, hend, hr 0]
    | succ n =>
      unfold preprocessNth
      rw [hpre n (by omega)]
      unfold preprocessNext
      simp only [Bool.false_eq_true, if_false, hend, hr]
  have hstop : ∀ k, preprocessNth data rng f (n + 1 + k) = (.stops, ⟨n + 1, n, true⟩) := by
    intro k
    induction k with
    | zero =>
      show preprocessNext data rng f (preprocessNth data rng f n).2 = _
      rw [hn]
      rfl
    | succ k ih =>
      show preprocessNext data rng f (preprocessNth data rng f (n + 1 + k)).2 = _
      rw [ih]
      rfl
  exact ⟨fun i hi => by rw [hpre i hi], by rw [hn], fun k => by rw [hstop k]⟩

/-! ## add_noise_to_input_frame -/

/-- **C53.** `add_noise_to_input_frame` changes only the first time frame of each array: leaf `k` gets `scale` times the noise drawn with
key `k` of the split, added to frame 0; all other frames and all shapes are kept.  With noise in `[-2, 2]` no entry moves by more than
`2 |scale|`. -/
theorem C53_add_noise {Key : Type} (split : Key → ℕ → List Key) (hsplit : ∀ k n, (split k n).length = n)
    (normal : Key → (Fin (d + 1) → ℕ) → NArr (d + 1) ℝ) (hn : ∀ k s, (normal k s).shape = s) (h2 : ∀ k s i, |(normal k s).data i| ≤ 2)
    (batch : List (NArr (d + 2) ℝ)) (hb : batch ≠ []) (ht : ∀ x ∈ batch, x.shape 1 ≠ 0) (rng : Key) (scale : ℝ) :
    ∃ r, addNoiseToInputFrame split normal batch rng scale = .ok r ∧ r.length = batch.length ∧
      ∀ k (hk : k < batch.length) (hk' : k < r.length) (hk'' : k < (split rng batch.length).length),
        (r[k]).shape = (batch[k]).shape ∧
        (∀ i : Idx (d + 2), i 1 ≠ 0 → (r[k]).data i = (batch[k]).data i) ∧
        (∀ i : Idx (d + 2), i 1 = 0 → (r[k]).data i = (batch[k]).data i + scale *
          (normal (split rng batch.length)[k] fun b => (batch[k]).shape ((1 : Fin (d + 2)).succAbove b)).data
            fun b => i ((1 : Fin (d + 2)).succAbove b)) ∧
        ∀ i : Idx (d + 2), |(r[k]).data i - (batch[k]).data i| ≤ 2 * |scale| := by
  let F : NArr (d + 2) ℝ × Key → NArr (d + 2) ℝ := fun xk => ⟨xk.1.shape, fun i => if i timeAxis = 0 then xk.1.data i + scale *
    (normal xk.2 fun b => xk.1.shape (timeAxis.succAbove b)).data (fun b => i (timeAxis.succAbove b)) else xk.1.data i⟩
  have hzl : (batch.zip (split rng batch.length)).length = batch.length := by rw [List.length_zip, hsplit, min_self]
  refine ⟨(batch.zip (split rng batch.length)).map F, ?_, by rw [List.length_map, hzl], fun k hk hk' hk'' => ?_⟩
  · unfold addNoiseToInputFrame
    rw [if_neg hb, if_neg (by rintro ⟨x, hx, h0⟩; exact ht x hx h0), mapM_eq_ok, List.forall₂_map_right_iff]
    refine List.forall₂_same.2 fun xk hxk => ?_
    unfold addNoiseLeaf
    rw [if_neg (show ¬ xk.1.shape timeAxis = 0 from ht xk.1 (List.of_mem_zip hxk).1), if_pos (hn _ _)]
  · have e : ((batch.zip (split rng batch.length)).map F)[k] = F (batch[k], (split rng batch.length)[k]) := by
      rw [List.getElem_map, List.getElem_zip]
    rw [e]
    refine ⟨rfl, fun i hi => if_neg hi, fun i hi => if_pos hi, fun i => ?_⟩
    by_cases hi : i 1 = 0
    · show |(if i timeAxis = 0 then _ else _) - _| ≤ _
      rw [if_pos (show i timeAxis = 0 from hi), add_sub_cancel_left, abs_mul, mul_comm]
      exact mul_le_mul_of_nonneg_right (h2 _ _ _) (abs_nonneg _)
    · show |(if i timeAxis = 0 then _ else _) - _| ≤ _
      rw [if_neg (show ¬ i timeAxis = 0 from hi), sub_self, abs_zero]
      positivity

/-! ## Non-vacuity -/

/-- three batches, of which only two report `b` -/
example : ∃ r, streamingMean [1, 2, 3] (fun n : ℕ => .ok (if n = 2 then [("a", 6)] else [("a", (n : ℝ)), ("b", 3)])) = .ok r ∧
    get r "a" = some (10 / 3) ∧ get r "b" = some 2 ∧ get r "c" = none := by
  obtain ⟨-, -, h⟩ := C53_streaming_mean [1, 2, 3] (fun n : ℕ => .ok (if n = 2 then [("a", 6)] else [("a", (n : ℝ)), ("b", 3)]))
    (fun b m hm => by
      have hm := Except.ok.inj hm
      subst hm
      unfold IsDict
      split_ifs <;> simp)
  obtain ⟨r, h1, -, h2⟩ := h [[("a", 1), ("b", 3)], [("a", 6)], [("a", 3), ("b", 3)]] (by simp)
    (by norm_num [List.mapM_cons, List.mapM_nil, bind, Except.bind, pure, Except.pure])
  have hba : ("b" : String) ≠ "a" := by decide
  have hca : ("c" : String) ≠ "a" := by decide
  have hcb : ("c" : String) ≠ "b" := by decide
  refine ⟨r, h1, ?_, ?_, ?_⟩
  · rw [h2]; norm_num [keySum, get_cons, get_nil]
  · rw [h2]; norm_num [keySum, get_cons, get_nil, hba]
  · rw [h2]; norm_num [keySum, get_cons, get_nil, hca, hcb]

/-- two batches, then the error -/
example : (preprocessNth (fun i => if i < 2 then some (i + 10) else none) (fun i => some i) (fun x r => .ok (x * r)) 1).1 = .yields 11 ∧
    (preprocessNth (fun i => if i < 2 then some (i + 10) else none) (fun i => some i) (fun x r : ℕ => .ok (x * r)) 2).1 = .raises .runtime := by
  obtain ⟨h1, h2, -⟩ := C53_preprocess_end_defect (fun i => if i < 2 then some (i + 10) else none) (fun i => some i)
    (fun x r : ℕ => .ok (x * r)) (fun i => i + 10) (fun i => i) (fun i => (i + 10) * i) 2 (fun i hi => if_pos hi) (by simp) (fun _ => rfl) (fun _ _ => rfl)
  exact ⟨h1 1 (by norm_num), h2⟩

/-- two steps of gradient descent on `o²`, with a learning rate that depends on the step number -/
example : ∃ os : ℕ → ℝ, os 0 = 8 ∧ os 2 = 8 - 16 / 4 - 8 / 5 := by
  have h := (C53_train_steps (fun (p : ℝ) (_ : Unit) => .ok (p ^ 2, 2 * p)) (fun n g o => .ok (o - g / (n : ℝ))) (fun o => .ok o) [(), ()] 4 8
    (6, 8 - 16 / 4 - 8 / 5) [64, 16]).1
    (by norm_num [List.foldlM_cons, List.foldlM_nil, trainStep, bind, Except.bind, pure, Except.pure])
  obtain ⟨-, -, os, h1, h2, -⟩ := h
  exact ⟨os, h1, h2⟩

example : ∃ r, addNoiseToInputFrame (fun (k : ℕ) n => (List.range n).map (k + ·)) (fun k s => ⟨s, fun _ => (k % 3 : ℕ) - 1⟩)
    [(⟨fun _ => 2, fun i => i 1⟩ : NArr 2 ℝ)] 3 (1 / 10) = .ok r ∧ r.length = 1 := by
  obtain ⟨r, h, h', -⟩ := C53_add_noise (d := 0) (fun (k : ℕ) n => (List.range n).map (k + ·)) (by simp)
    (fun k s => ⟨s, fun _ => (k % 3 : ℕ) - 1⟩) (fun _ _ => rfl) (fun k s i => by
      have : k % 3 < 3 := Nat.mod_lt _ (by norm_num)
      show |((k % 3 : ℕ) : ℝ) - 1| ≤ 2
      have h3 : ((k % 3 : ℕ) : ℝ) < 3 := by exact_mod_cast this
      have h0 : (0 : ℝ) ≤ ((k % 3 : ℕ) : ℝ) := Nat.cast_nonneg _
      rw [abs_le]
      constructor <;> linarith) [(⟨fun _ => 2, fun i => i 1⟩ : NArr 2 ℝ)] (by simp) (by simp) 3 (1 / 10)
  exact ⟨r, h, h'⟩

end JaxCfd.Train
