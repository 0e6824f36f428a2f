import Verif.Props.Integrate
import Verif.Proofs.Control
import Verif.Proofs.Adjoint

/-!
# A run in two parts (for C121)
-/

namespace Pyoptmat.Split

open Pyoptmat.Chunktime Pyoptmat.Newton Pyoptmat.Ode

variable {β : Type*} {m : ℕ}

/-! ## The result depends on the right hand side only through the block equations -/

theorem step_congr (c : Config) {F F' : BFunc β m} {nt n : ℕ} {t : ℕ → β → ℝ} (k : ℕ)
    (hF : ∀ yS dy, blockRJ c.scheme F (fun j : Fin (sliceLen nt k n) => t (k + j.val)) (t (k - 1)) yS dy =
      blockRJ c.scheme F' (fun j : Fin (sliceLen nt k n) => t (k + j.val)) (t (k - 1)) yS dy) (st : Partial β m × Bool) :
    integrateStep c F nt n t st k = integrateStep c F' nt n t st k := by
  unfold integrateStep blockUpdate blockNewton
  have h : ∀ yS, blockRJ c.scheme F (fun j : Fin (sliceLen nt k n) => t (k + j.val)) (t (k - 1)) yS =
      blockRJ c.scheme F' (fun j : Fin (sliceLen nt k n) => t (k + j.val)) (t (k - 1)) yS := fun yS => funext fun dy => hF yS dy
  simp only [h]

theorem loop_congr (c : Config) {F F' : BFunc β m} {nt n : ℕ} {t t' : ℕ → β → ℝ} (ks : List ℕ)
    (h : ∀ k ∈ ks, ∀ st, integrateStep c F nt n t st k = integrateStep c F' nt n t' st k) : ∀ st : Partial β m × Bool,
    integrateLoop c F nt n t ks st = integrateLoop c F' nt n t' ks st := by
  induction ks with
  | nil => intro st; rfl
  | cons k ks ih =>
    intro st
    unfold integrateLoop
    rw [h k (by simp)]
    cases integrateStep c F' nt n t' st k with
    | error e => rfl
    | ok st' => exact ih (fun k hk => h k (by simp [hk])) st'

/-! ## One block, with the number of its rows as an argument -/

/-- `integrateStep` for `L` rows, previous time `tp`, times of the rows `ts`, state `y` and guess `g`. -/
noncomputable def body (c : Config) (F : BFunc β m) (L : ℕ) (ts : ℕ → β → ℝ) (tp : β → ℝ) (y : BVec β m ℝ)
    (g : Except String (List (BVec β m ℝ))) (st : Partial β m × Bool) (k : ℕ) : Except String (Partial β m × Bool) :=
  match g with
  | .error e => .error e
  | .ok g =>
    if g.length = L then
      match blockUpdate c F (fun j : Fin L => ts j.val) tp y (flatten fun j : Fin L => g.getD j.val 0) with
      | .error e => .error e
      | .ok r => .ok (fun j => if h : k ≤ j ∧ j - k < L then some (r.1 ⟨j - k, h.2⟩) else st.1 j, st.2 || r.2)
    else .error "shape mismatch in reshape"

theorem step_eq (c : Config) (F : BFunc β m) (nt n : ℕ) (t : ℕ → β → ℝ) (st : Partial β m × Bool) (k : ℕ) :
    integrateStep c F nt n t st k = body c F (sliceLen nt k n) (fun j => t (k + j)) (t (k - 1)) (st.1.get (k - 1))
      (initialGuess c.guessType nt n st.1 k) st k := by
  unfold integrateStep body
  cases initialGuess c.guessType nt n st.1 k with
  | error e => rfl
  | ok g =>
    dsimp only
    by_cases hl : g.length = sliceLen nt k n
    · rw [if_pos hl, if_pos hl]
      generalize blockUpdate c F (fun j : Fin (sliceLen nt k n) => t (k + j.val)) (t (k - 1)) (st.1.get (k - 1)) _ = r
      cases r <;> rfl
    · rw [if_neg hl, if_neg hl]

/-! ## The list of blocks -/

theorem starts_split {n i nt : ℕ} (hn : 0 < n) (hi : i * n < nt) :
    List.range' 1 ((nt - 1 + (n - 1)) / n) n =
      List.range' 1 i n ++ (List.range' 1 ((nt - i * n - 1 + (n - 1)) / n) n).map fun k => i * n + k := by
  have h1 : (nt - 1 + (n - 1)) / n = i + (nt - i * n - 1 + (n - 1)) / n := by
    rw [show nt - 1 + (n - 1) = (nt - i * n - 1 + (n - 1)) + i * n by omega, Nat.add_mul_div_right _ _ hn]
    omega
  rw [h1, ← List.range'_append, List.map_add_range']
  congr 2
  ring

theorem starts_head {n i : ℕ} (hn : 0 < n) : (i * n + 1 - 1 + (n - 1)) / n = i := by
  rw [show i * n + 1 - 1 + (n - 1) = (n - 1) + i * n by omega, Nat.add_mul_div_right _ _ hn, Nat.div_eq_of_lt (by omega)]
  omega

theorem loop_append (c : Config) (F : BFunc β m) (nt n : ℕ) (t : ℕ → β → ℝ) (l l' : List ℕ) : ∀ st : Partial β m × Bool,
    integrateLoop c F nt n t (l ++ l') st =
      match integrateLoop c F nt n t l st with
      | .error e => .error e
      | .ok st' => integrateLoop c F nt n t l' st' := by
  induction l with
  | nil => intro st; rfl
  | cons k ks ih =>
    intro st
    rw [List.cons_append]
    cases h : integrateStep c F nt n t st k with
    | error e => simp only [integrateLoop, h]
    | ok st' =>
      simp only [integrateLoop, h]
      exact ih st'

/-! ## The first part -/

theorem step_head (c : Config) (F : BFunc β m) {nt nt' n : ℕ} {t : ℕ → β → ℝ} (k : ℕ) (h : k + n ≤ nt) (h' : k + n ≤ nt')
    (st : Partial β m × Bool) : integrateStep c F nt n t st k = integrateStep c F nt' n t st k := by
  have hl : sliceLen nt k n = sliceLen nt' k n := by unfold sliceLen; omega
  rw [step_eq, step_eq]
  unfold initialGuess
  rw [hl]

theorem loop_nt (c : Config) (F : BFunc β m) {nt nt' n : ℕ} {t : ℕ → β → ℝ} (ks : List ℕ)
    (h : ∀ k ∈ ks, k + n ≤ nt ∧ k + n ≤ nt') : ∀ st : Partial β m × Bool,
    integrateLoop c F nt n t ks st = integrateLoop c F nt' n t ks st := by
  induction ks with
  | nil => intro st; rfl
  | cons k ks ih =>
    intro st
    unfold integrateLoop
    rw [step_head c F (nt' := nt') k (h k (by simp)).1 (h k (by simp)).2]
    cases integrateStep c F nt' n t st k with
    | error e => rfl
    | ok st' => exact ih (fun k hk => h k (by simp [hk])) st'

/-! ## The second part -/

/-- The rows up to `k0` from the first part, the others from the second. -/
def merge (k0 : ℕ) (r1 : Partial β m × Bool) (r2 : Partial β m × Bool) : Partial β m × Bool :=
  (fun j => if j ≤ k0 then r1.1 j else r2.1 (j - k0), r1.2 || r2.2)

theorem step_tail (c : Config) (hg : c.guessType ≠ "previous") (F : BFunc β m) {nt n k0 : ℕ} (hk0 : k0 < nt) {t : ℕ → β → ℝ}
    (r1 : Partial β m × Bool) (st : Partial β m × Bool) (h0 : st.1.get 0 = r1.1.get k0) (k : ℕ) (hk : 0 < k) :
    integrateStep c F nt n t (merge k0 r1 st) (k0 + k) =
      (integrateStep c F (nt - k0) n (fun j => t (k0 + j)) st k).map (merge k0 r1) := by
  have hl : sliceLen nt (k0 + k) n = sliceLen (nt - k0) k n := by unfold sliceLen; omega
  have hget : (merge k0 r1 st).1.get (k0 + k - 1) = st.1.get (k - 1) := by
    unfold merge Partial.get
    dsimp only
    by_cases h : k = 1
    · subst h
      rw [if_pos (by omega), show k0 + 1 - 1 = k0 by omega]
      exact h0.symm
    · rw [if_neg (by omega), show k0 + k - 1 - k0 = k - 1 by omega]
  have ht : t (k0 + (k - 1)) = t (k0 + k - 1) := by
    rw [show k0 + (k - 1) = k0 + k - 1 by omega]
  have htt : (fun j => t (k0 + k + j)) = fun j => t (k0 + (k + j)) := by
    funext j
    rw [add_assoc]
  rw [step_eq, step_eq]
  unfold initialGuess
  rw [hl, hget, ht, htt]
  generalize sliceLen (nt - k0) k n = L
  by_cases hz : c.guessType = "zero"
  · simp only [hz, if_true, List.length_replicate, body]
    generalize blockUpdate c F (fun j : Fin L => t (k0 + (k + j.val))) (t (k0 + k - 1)) (st.1.get (k - 1)) _ = r
    cases r with
    | error e => rfl
    | ok r =>
      simp only [Except.map, merge]
      congr 2
      · funext j
        by_cases hj : j ≤ k0
        · have : ¬(k0 + k ≤ j ∧ j - (k0 + k) < L) := by omega
          simp only [hj, if_true, this, dif_neg, not_false_eq_true]
        · by_cases h1 : k0 + k ≤ j ∧ j - (k0 + k) < L
          · have h2 : k ≤ j - k0 ∧ j - k0 - k < L := by omega
            simp only [hj, if_false, h1, dif_pos, h2, and_self]
            exact congrArg (fun x => some (r.1 x)) (Fin.ext (show j - (k0 + k) = j - k0 - k by omega))
          · have h2 : ¬(k ≤ j - k0 ∧ j - k0 - k < L) := by omega
            simp only [hj, if_false, h1, h2, dif_neg, not_false_eq_true]
      · exact Bool.or_assoc _ _ _
  · simp only [hz, hg, if_false]
    rfl

theorem step_row0 (c : Config) (F : BFunc β m) {nt n : ℕ} {t : ℕ → β → ℝ} (st st' : Partial β m × Bool) (k : ℕ) (hk : 0 < k)
    (h : integrateStep c F nt n t st k = .ok st') : st'.1 0 = st.1 0 := by
  unfold integrateStep at h
  cases hg : initialGuess c.guessType nt n st.1 k with
  | error e => rw [hg] at h; cases h
  | ok g =>
    rw [hg] at h
    dsimp only at h
    split_ifs at h with hl
    revert h
    generalize blockUpdate c F (fun j : Fin (sliceLen nt k n) => t (k + j.val)) (t (k - 1)) (st.1.get (k - 1)) _ = r
    intro h
    cases r with
    | error e => cases h
    | ok r =>
      obtain rfl := Except.ok.inj h
      have : ¬(k ≤ 0 ∧ 0 - k < sliceLen nt k n) := by omega
      simp only [this, dif_neg, not_false_eq_true]

theorem loop_tail (c : Config) (hg : c.guessType ≠ "previous") (F : BFunc β m) {nt n k0 : ℕ} (hk0 : k0 < nt) {t : ℕ → β → ℝ}
    (r1 : Partial β m × Bool) (ks : List ℕ) (hks : ∀ k ∈ ks, 0 < k) : ∀ st : Partial β m × Bool, st.1.get 0 = r1.1.get k0 →
    integrateLoop c F nt n t (ks.map fun k => k0 + k) (merge k0 r1 st) =
      (integrateLoop c F (nt - k0) n (fun j => t (k0 + j)) ks st).map (merge k0 r1) := by
  induction ks with
  | nil => intro st _; rfl
  | cons k ks ih =>
    intro st h0
    rw [List.map_cons]
    unfold integrateLoop
    rw [step_tail c hg F hk0 r1 st h0 k (hks k (by simp))]
    cases hst : integrateStep c F (nt - k0) n (fun j => t (k0 + j)) st k with
    | error e => rfl
    | ok st' =>
      refine ih (fun k hk => hks k (by simp [hk])) st' ?_
      rw [← h0]
      unfold Partial.get
      rw [step_row0 c F st st' k (hks k (by simp)) hst]

/-- Blocks of the size `n`, at least one time. -/
theorem integrate_eq (c : Config) (F : BFunc β m) (y0 : BVec β m ℝ) {nt : ℕ} (hnt : 0 < nt) (t : ℕ → β → ℝ) {n : ℕ} (hn : 0 < n) :
    integrate c F y0 nt t (n : ℤ) = integrateLoop c F nt n t (List.range' 1 ((nt - 1 + (n - 1)) / n) n)
      (fun j => if j = 0 then some y0 else none, false) := by
  unfold integrate blockStarts
  rw [if_neg (by omega), if_neg (by omega), if_neg (by omega)]
  rfl

theorem integrate_split (c : Config) (hg : c.guessType ≠ "previous") (F : BFunc β m) (y0 : BVec β m ℝ) (nt : ℕ) (t : ℕ → β → ℝ) {n : ℕ}
    (hn : 0 < n) (i : ℕ) (hi : i * n < nt) :
    integrate c F y0 nt t n =
      match integrate c F y0 (i * n + 1) t n with
      | .error e => .error e
      | .ok r1 => (integrate c F (r1.1.get (i * n)) (nt - i * n) (fun k => t (i * n + k)) n).map (merge (i * n) r1) := by
  rw [integrate_eq c F y0 (by omega) t hn, starts_split hn hi, loop_append, integrate_eq c F y0 (by omega) t hn, starts_head hn]
  have hh : ∀ st, integrateLoop c F nt n t (List.range' 1 i n) st = integrateLoop c F (i * n + 1) n t (List.range' 1 i n) st := fun st =>
    loop_nt c F _ (fun k hk => by
      obtain ⟨a, ha, rfl⟩ := List.mem_range'.1 hk
      have : (a + 1) * n ≤ i * n := Nat.mul_le_mul_right n ha
      have e1 : (a + 1) * n = n * a + n := by ring
      omega) st
  rw [hh]
  cases hr : integrateLoop c F (i * n + 1) n t (List.range' 1 i n) (fun j => if j = 0 then some y0 else none, false) with
  | error e => rfl
  | ok r1 =>
    dsimp only
    have h14 := (Props.C14_every_time_filled c F y0 (i * n + 1) t (n : ℤ) (by omega) r1.1 r1.2 (by
      rw [integrate_eq c F y0 (by omega) t hn, starts_head hn, hr])).1
    rw [integrate_eq c F _ (by omega) _ hn]
    have hm : r1 = merge (i * n) r1 ((fun j => if j = 0 then some (r1.1.get (i * n)) else none, false) : Partial β m × Bool) := by
      refine Prod.ext ?_ (by simp [merge])
      funext j
      simp only [merge]
      by_cases hj : j ≤ i * n
      · rw [if_pos hj]
      · rw [if_neg hj, if_neg (by omega)]
        cases hv : r1.1 j with
        | none => rfl
        | some v => exact absurd ((h14 j).1 ⟨v, hv⟩) (by omega)
    conv_lhs => rw [hm]
    exact loop_tail c hg F (by omega) r1 _ (fun k hk => by
      obtain ⟨a, ha, rfl⟩ := List.mem_range'.1 hk
      omega) _ (by simp [Partial.get])

/-! ## Earlier rows -/

theorem step_row (c : Config) (F : BFunc β m) {nt n : ℕ} {t : ℕ → β → ℝ} (st st' : Partial β m × Bool) (k : ℕ)
    (h : integrateStep c F nt n t st k = .ok st') : (∀ j < k, st'.1 j = st.1 j) ∧ (st.2 = true → st'.2 = true) := by
  rw [step_eq] at h
  unfold body at h
  cases hg : initialGuess c.guessType nt n st.1 k with
  | error e => rw [hg] at h; cases h
  | ok g =>
    rw [hg] at h
    dsimp only at h
    split_ifs at h with hl
    revert h
    generalize blockUpdate c F (fun j : Fin (sliceLen nt k n) => t (k + j.val)) (t (k - 1)) (st.1.get (k - 1)) _ = r
    intro h
    cases r with
    | error e => cases h
    | ok r =>
      obtain rfl := Except.ok.inj h
      refine ⟨fun j hj => ?_, fun hw => by simp [hw]⟩
      have : ¬(k ≤ j ∧ j - k < sliceLen nt k n) := by omega
      simp only [this, dif_neg, not_false_eq_true]

theorem loop_row (c : Config) (F : BFunc β m) {nt n : ℕ} {t : ℕ → β → ℝ} (K : ℕ) (ks : List ℕ) (hks : ∀ k ∈ ks, K ≤ k) :
    ∀ st st' : Partial β m × Bool, integrateLoop c F nt n t ks st = .ok st' →
      (∀ j < K, st'.1 j = st.1 j) ∧ (st.2 = true → st'.2 = true) := by
  induction ks with
  | nil => intro st st' h; obtain rfl := Except.ok.inj h; exact ⟨fun _ _ => rfl, id⟩
  | cons k ks ih =>
    intro st st' h
    unfold integrateLoop at h
    cases hs : integrateStep c F nt n t st k with
    | error e => rw [hs] at h; cases h
    | ok s1 =>
      rw [hs] at h
      obtain ⟨a1, a2⟩ := step_row c F st s1 k hs
      obtain ⟨b1, b2⟩ := ih (fun k hk => hks k (by simp [hk])) s1 st' h
      exact ⟨fun j hj => (b1 j hj).trans (a1 j (lt_of_lt_of_le hj (hks k (by simp)))), fun hw => b2 (a2 hw)⟩

theorem integrate_prefix (c : Config) (F : BFunc β m) (y0 : BVec β m ℝ) (nt : ℕ) (t : ℕ → β → ℝ) {n : ℕ} (hn : 0 < n) (i : ℕ)
    (hi : i * n < nt) (res : Partial β m) (w : Bool) (h : integrate c F y0 nt t n = .ok (res, w)) :
    ∃ res' w', integrate c F y0 (i * n + 1) t n = .ok (res', w') ∧ (∀ k ≤ i * n, res' k = res k) ∧ (w' = true → w = true) := by
  rw [integrate_eq c F y0 (by omega) t hn, starts_split hn hi, loop_append] at h
  rw [integrate_eq c F y0 (by omega) t hn, starts_head hn]
  have hh : ∀ st, integrateLoop c F nt n t (List.range' 1 i n) st = integrateLoop c F (i * n + 1) n t (List.range' 1 i n) st := fun st =>
    loop_nt c F _ (fun k hk => by
      obtain ⟨a, ha, rfl⟩ := List.mem_range'.1 hk
      have : (a + 1) * n ≤ i * n := Nat.mul_le_mul_right n ha
      have e1 : (a + 1) * n = n * a + n := by ring
      omega) st
  rw [hh] at h
  cases hr : integrateLoop c F (i * n + 1) n t (List.range' 1 i n) (fun j => if j = 0 then some y0 else none, false) with
  | error e => rw [hr] at h; cases h
  | ok r1 =>
    rw [hr] at h
    obtain ⟨h1, h2⟩ := loop_row c F (i * n + 1) _ (fun k hk => by
      obtain ⟨a, ha, rfl⟩ := List.mem_map.1 hk
      obtain ⟨a, _, rfl⟩ := List.mem_range'.1 ha
      omega) _ _ h
    exact ⟨r1.1, r1.2, rfl, fun k hk => (h1 k (by omega)).symm, h2⟩

theorem starts_pos_le {nt n k : ℕ} (hn : 0 < n) (hk : k ∈ List.range' 1 ((nt - 1 + (n - 1)) / n) n) : 0 < k ∧ k < nt := by
  obtain ⟨a, ha, rfl⟩ := List.mem_range'.1 hk
  have h2 : a + 1 ≤ (nt - 1 + (n - 1)) / n := ha
  have h3 := (Nat.le_div_iff_mul_le hn).1 h2
  have h4 : (a + 1) * n = n * a + n := by ring
  omega

/-- Right hand sides and times that agree on the rows of the run give the same run. -/
theorem integrate_congr (c : Config) {F F' : BFunc β m} (y0 : BVec β m ℝ) {nt : ℕ} (hnt : 0 < nt) {t t' : ℕ → β → ℝ} (ht : ∀ k < nt, t k = t' k)
    {n : ℕ} (hn : 0 < n)
    (hF : ∀ k L, 0 < k → k + L ≤ nt → ∀ yS dy, blockRJ c.scheme F (fun j : Fin L => t (k + j.val)) (t (k - 1)) yS dy =
      blockRJ c.scheme F' (fun j : Fin L => t (k + j.val)) (t (k - 1)) yS dy) :
    integrate c F y0 nt t n = integrate c F' y0 nt t' n := by
  rw [integrate_eq c F y0 hnt t hn, integrate_eq c F' y0 hnt t' hn]
  refine loop_congr c _ (fun k hk st => ?_) _
  obtain ⟨h1, h2⟩ := starts_pos_le hn hk
  rw [step_congr c k (fun yS dy => hF k _ h1 (by unfold sliceLen; omega) yS dy)]
  rw [step_eq, step_eq]
  unfold body
  cases initialGuess c.guessType nt n st.1 k with
  | error e => rfl
  | ok g =>
    dsimp only
    rw [ht (k - 1) (by omega), show (fun j : Fin (sliceLen nt k n) => t (k + j.val)) = fun j : Fin (sliceLen nt k n) => t' (k + j.val) from
      funext fun j => ht _ (by have := j.2; unfold sliceLen at this; omega)]

theorem blockRJ_eq (s : Scheme) {F F' : BFunc β m} {L : ℕ} {ts : Fin L → β → ℝ} {tp : β → ℝ}
    (h : ∀ y, F (L + 1) (stack tp ts) y = F' (L + 1) (stack tp ts) y) (yS : BVec β m ℝ) (dy : β → Fin (L * m) → ℝ) :
    blockRJ s F ts tp yS dy = blockRJ s F' ts tp yS dy := by
  unfold blockRJ
  simp only [h]

/-- Backward Euler does not look at the right hand side at the start of a block. -/
theorem blockRJ_eq_backward {f f' : Func β m} {L : ℕ} {ts : Fin L → β → ℝ} {tp : β → ℝ}
    (h : ∀ k b y, f b (ts k b) y = f' b (ts k b) y) (yS : BVec β m ℝ) (dy : β → Fin (L * m) → ℝ) :
    blockRJ .backwardEuler (Func.lift f) ts tp yS dy = blockRJ .backwardEuler (Func.lift f') ts tp yS dy := by
  unfold blockRJ
  simp only [formOperators, Func.lift]
  have hs : ∀ (k : Fin L) (b : β) (y), f b (stack tp ts k.succ b) y = f' b (stack tp ts k.succ b) y := fun k b y => h k b y
  simp only [hs]

theorem stack_row {t : ℕ → β → ℝ} {k L K : ℕ} (hk : 0 < k) (hL : k + L ≤ K) (j : Fin (L + 1)) :
    ∃ i < K, stack (t (k - 1)) (fun j : Fin L => t (k + j.val)) j = t i := by
  refine Fin.cases ?_ (fun i => ?_) j
  · exact ⟨k - 1, by omega, rfl⟩
  · exact ⟨k + i.val, by have := i.2; omega, rfl⟩

/-! ## The control modes see the data row by row -/

section Control

open Pyoptmat.Material Pyoptmat.Control Pyoptmat.Spec

theorem rateFn_row {nt : ℕ} {times : ℕ → ℝ} (h : StrictGrid (nt - 1) times) (data : ℕ → ℝ) {k : ℕ} (hk : k < nt) (hn : 1 < nt) :
    rateFn nt times data (times k) = rateData times data k := by
  unfold rateFn
  rw [interpFn_grid (by omega) h _ (by omega)]

theorem rateData_congr {times times' data data' : ℕ → ℝ} {K : ℕ} (ht : ∀ k < K, times k = times' k) (hd : ∀ k < K, data k = data' k) {k : ℕ}
    (hk : k < K) : rateData times data k = rateData times' data' k := by
  unfold rateData
  rw [ht k hk, ht (k - 1) (by omega), hd k hk, hd (k - 1) (by omega)]

end Control

/-! ## The adjoint pass -/

theorem adj_congr (s : Scheme) (f : Func β m) {t t' : ℕ → β → ℝ} {y y' g g' : ℕ → BVec β m ℝ} (N : ℕ) (ht : ∀ j ≤ N, t j = t' j)
    (hy : ∀ j ≤ N, y j = y' j) (hg : ∀ j ≤ N, g j = g' j) : ∀ j ≤ N, adj s f t y g j = adj s f t' y' g' j := by
  intro j
  induction j with
  | zero => intro h; exact hg 0 h
  | succ j ih =>
    intro h
    funext b
    cases s with
    | backwardEuler =>
      simp only [adj]
      rw [hg _ h, ht _ h, ht j (by omega), hy j (by omega), ih (by omega)]
    | forwardEuler =>
      simp only [adj]
      rw [hg _ h, ht _ h, ht j (by omega), hy _ h, ih (by omega)]

theorem adj_shift (s : Scheme) (f : Func β m) (t : ℕ → β → ℝ) (y g : ℕ → BVec β m ℝ) (N : ℕ) (g' : ℕ → BVec β m ℝ)
    (h0 : g' 0 = adj s f t y g N) (hg : ∀ j, g' (j + 1) = g (N + (j + 1))) : ∀ j,
    adj s f (fun j => t (N + j)) (fun j => y (N + j)) g' j = adj s f t y g (N + j) := by
  intro j
  induction j with
  | zero => exact h0
  | succ j ih =>
    funext b
    rw [← add_assoc] at *
    cases s with
    | backwardEuler =>
      simp only [adj]
      rw [hg, ih]
      rfl
    | forwardEuler =>
      simp only [adj]
      rw [hg, ih]
      rfl

end Pyoptmat.Split
