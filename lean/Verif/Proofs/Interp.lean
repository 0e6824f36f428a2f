import Verif.Model.Interp
import Verif.Spec.Interp
import Mathlib.Data.List.GetD
import Mathlib.Tactic

/-! Helper lemmas: interpolation. -/

namespace Pyoptmat.Interp

open Pyoptmat.Spec

theorem grid_lt {n : ℕ} {times : ℕ → ℝ} (h : StrictGrid n times) {i j : ℕ} (hij : i < j) (hj : j ≤ n) :
    times i < times j := by
  induction j with
  | zero => omega
  | succ j ih =>
    rcases Nat.lt_succ_iff_lt_or_eq.1 hij with h1 | h1
    · exact (ih h1 (by omega)).trans (h j (by omega))
    · subst h1; exact h i (by omega)

theorem grid_le {n : ℕ} {times : ℕ → ℝ} (h : StrictGrid n times) {i j : ℕ} (hij : i ≤ j) (hj : j ≤ n) :
    times i ≤ times j := by
  rcases hij.lt_or_eq with h1 | h1
  · exact (grid_lt h h1 hj).le
  · rw [h1]

theorem poss_eq (times vals : ℕ → ℝ) (t : ℝ) (j : ℕ) :
    poss times vals t j = vals j + (t - times j) / (times (j + 1) - times j) * (vals (j + 1) - vals j) := by
  unfold poss slope
  ring

/-- an in-range time selects an interval -/
theorem exists_loc {n : ℕ} (hn : 0 < n) (times : ℕ → ℝ) {t : ℝ} (h0 : times 0 ≤ t) (h1 : t ≤ times n) :
    ∃ j < n, loc times t j := by
  rcases h0.eq_or_lt with h | h
  · exact ⟨0, hn, Or.inr ⟨rfl, h.symm⟩⟩
  · have : ∃ j, t ≤ times j := ⟨n, h1⟩
    classical
    have hm := Nat.find_spec this
    have hpos : Nat.find this ≠ 0 := by
      intro h'
      rw [h'] at hm
      linarith
    refine ⟨Nat.find this - 1, ?_, Or.inl ⟨?_, ?_⟩⟩
    · have := Nat.find_min' this h1
      omega
    · rw [Nat.sub_add_cancel (by omega)]; exact hm
    · have := Nat.find_min this (m := Nat.find this - 1) (by omega)
      exact not_le.1 this

theorem loc_mem {n : ℕ} {times : ℕ → ℝ} (h : StrictGrid n times) {t : ℝ} {j : ℕ} (hj : j < n) (hl : loc times t j) :
    times j ≤ t ∧ t ≤ times (j + 1) := by
  rcases hl with ⟨h1, h2⟩ | ⟨rfl, rfl⟩
  · exact ⟨h2.le, h1⟩
  · exact ⟨le_rfl, (h 0 hj).le⟩

/-- no two intervals are selected -/
theorem loc_unique {n : ℕ} {times : ℕ → ℝ} (h : StrictGrid n times) {t : ℝ} {i j : ℕ} (hi : i < n) (hj : j < n)
    (h1 : loc times t i) (h2 : loc times t j) : i = j := by
  have key : ∀ i j, i < n → j < n → i < j → loc times t i → loc times t j → False := by
    intro i j hi hj hij h1 h2
    have hle := grid_le h (i := i + 1) (j := j) (by omega) (by omega)
    have ht1 := (loc_mem h hi h1).2
    rcases h2 with ⟨_, h3⟩ | ⟨h3, _⟩
    · linarith
    · omega
  rcases lt_trichotomy i j with h' | h' | h'
  · exact (key i j hi hj h' h1 h2).elim
  · exact h'
  · exact (key j i hj hi h' h2 h1).elim

theorem filter_range_unique (p : ℕ → Bool) (n j : ℕ) (hj : j < n) (hp : p j = true) (hu : ∀ i < n, p i = true → i = j) :
    (List.range n).filter p = [j] := by
  have hnd : ((List.range n).filter p).Nodup := List.nodup_range.filter p
  have hmem : ∀ i, i ∈ (List.range n).filter p ↔ i = j := by
    intro i
    rw [List.mem_filter, List.mem_range]
    constructor
    · rintro ⟨h1, h2⟩; exact hu i h1 h2
    · rintro rfl; exact ⟨hj, hp⟩
  cases hl : (List.range n).filter p with
  | nil => rw [hl] at hmem; simpa using (hmem j).2 rfl
  | cons a l =>
    rw [hl] at hmem hnd
    have ha : a = j := (hmem a).1 (by simp)
    cases l with
    | nil => rw [ha]
    | cons b l =>
      have hb : b = j := (hmem b).1 (by simp)
      rw [ha, hb] at hnd
      simp at hnd

theorem hits_of_loc {n : ℕ} {times : ℕ → ℝ} (h : StrictGrid n times) (vals : ℕ → ℝ) {t : ℝ} {j : ℕ} (hj : j < n)
    (hl : loc times t j) : hits n times vals t = [poss times vals t j] := by
  unfold hits
  rw [filter_range_unique _ n j hj (by simpa using hl) fun i hi hp => loc_unique h hi hj (by simpa using hp) hl]
  rfl

theorem hits_in_range {n : ℕ} (hn : 0 < n) {times : ℕ → ℝ} (h : StrictGrid n times) (vals : ℕ → ℝ) {t : ℝ}
    (h0 : times 0 ≤ t) (h1 : t ≤ times n) :
    ∃ v, hits n times vals t = [v] ∧ interpFn n times vals t = v ∧ OnPolyline n times vals t v := by
  obtain ⟨j, hj, hl⟩ := exists_loc hn times h0 h1
  have e := hits_of_loc h vals hj hl
  refine ⟨_, e, by rw [interpFn, e]; rfl, j, hj, (loc_mem h hj hl).1, (loc_mem h hj hl).2, poss_eq _ _ _ _⟩

theorem hits_out_of_range {n : ℕ} {times : ℕ → ℝ} (h : StrictGrid n times) (vals : ℕ → ℝ) {t : ℝ}
    (ho : t < times 0 ∨ times n < t) : hits n times vals t = [] := by
  unfold hits
  rw [List.map_eq_nil_iff, List.filter_eq_nil_iff]
  intro j hj
  rw [List.mem_range] at hj
  simp only [decide_eq_true_eq]
  intro hl
  obtain ⟨h1, h2⟩ := loc_mem h hj hl
  have h3 := grid_le h (i := 0) (j := j) (by omega) (by omega)
  have h4 := grid_le h (i := j + 1) (j := n) (by omega) le_rfl
  rcases ho with ho | ho <;> linarith

theorem polyline_unique {n : ℕ} {times : ℕ → ℝ} (h : StrictGrid n times) (vals : ℕ → ℝ) {t v v' : ℝ}
    (hv : OnPolyline n times vals t v) (hv' : OnPolyline n times vals t v') : v = v' := by
  have key : ∀ i j v v', i < n → j < n → i < j → times i ≤ t → t ≤ times (i + 1) → times j ≤ t → t ≤ times (j + 1) →
      v = vals i + (t - times i) / (times (i + 1) - times i) * (vals (i + 1) - vals i) →
      v' = vals j + (t - times j) / (times (j + 1) - times j) * (vals (j + 1) - vals j) → v = v' := by
    intro i j v v' hi hj hij h1 h2 h3 h4 hv hv'
    have hle := grid_le h (i := i + 1) (j := j) (by omega) (by omega)
    have e : t = times (i + 1) := le_antisymm h2 (by linarith)
    have e' : t = times j := le_antisymm (by linarith) h3
    have hji : j = i + 1 := by
      by_contra hne
      have := grid_lt h (i := i + 1) (j := j) (by omega) (by omega)
      linarith
    rw [hv, hv', ← e', sub_self, zero_div, zero_mul, add_zero, ← e, hji]
    have := h i hi
    rw [e]
    rw [div_self (by linarith)]
    ring
  obtain ⟨i, hi, h1, h2, e1⟩ := hv
  obtain ⟨j, hj, h3, h4, e2⟩ := hv'
  rcases lt_trichotomy i j with h' | h' | h'
  · exact key i j v v' hi hj h' h1 h2 h3 h4 e1 e2
  · subst h'; rw [e1, e2]
  · exact (key j i v' v hj hi h' h3 h4 h1 h2 e2 e1).symm

theorem flatMap_const_length (nb q : ℕ) (f : ℕ → List ℝ) (hf : ∀ b < nb, (f b).length = q) :
    ((List.range nb).flatMap f).length = nb * q := by
  induction nb with
  | zero => simp
  | succ nb ih =>
    rw [List.range_succ, List.flatMap_append, List.length_append, ih fun b hb => hf b (by omega)]
    simp [hf nb (by omega), Nat.succ_mul]

theorem flatMap_getD (nb q : ℕ) (f : ℕ → List ℝ) (hf : ∀ b < nb, (f b).length = q) (b k : ℕ) (hb : b < nb) (hk : k < q) :
    ((List.range nb).flatMap f).getD (b * q + k) 0 = (f b).getD k 0 := by
  induction nb with
  | zero => omega
  | succ nb ih =>
    rw [List.range_succ, List.flatMap_append]
    have hlen := flatMap_const_length nb q f fun b hb => hf b (by omega)
    rcases Nat.lt_succ_iff_lt_or_eq.1 hb with h | h
    · rw [List.getD_append _ _ _ _ (by
        rw [hlen]
        calc b * q + k < b * q + q := by omega
          _ = (b + 1) * q := by ring
          _ ≤ nb * q := Nat.mul_le_mul_right q (by omega))]
      exact ih (fun b hb => hf b (by omega)) h
    · subst h
      rw [List.getD_append_right _ _ _ _ (by rw [hlen]; omega), hlen]
      simp

theorem flatMap_singleton (q : ℕ) (g : ℕ → ℝ) : ((List.range q).flatMap fun k => [g k]) = (List.range q).map g := by
  induction q with
  | zero => rfl
  | succ q ih => rw [List.range_succ, List.flatMap_append, ih, List.map_append]; rfl

theorem flat_in_range (nb q n : ℕ) (times vals t : ℕ → ℕ → ℝ) (g : ℕ → ℕ → ℝ)
    (h : ∀ b < nb, ∀ k < q, hits n (fun j => times j b) (fun j => vals j b) (t k b) = [g k b]) :
    (flat nb q n times vals t).length = nb * q ∧
    ∀ b < nb, ∀ k < q, (flat nb q n times vals t).getD (b * q + k) 0 = g k b := by
  have e : ∀ b < nb, ((List.range q).flatMap fun k => hits n (fun j => times j b) (fun j => vals j b) (t k b)) =
      (List.range q).map fun k => g k b := by
    intro b hb
    rw [← flatMap_singleton]
    refine List.flatMap_congr fun k hk => h b hb k (List.mem_range.1 hk)
  have hl : ∀ b < nb, ((List.range q).flatMap fun k => hits n (fun j => times j b) (fun j => vals j b) (t k b)).length = q := by
    intro b hb; rw [e b hb]; simp
  refine ⟨flatMap_const_length nb q _ hl, fun b hb k hk => ?_⟩
  unfold flat
  rw [flatMap_getD nb q _ hl b k hb hk, e b hb]
  simp [List.getD_eq_getElem?_getD, hk]

theorem flatMap_length_le (f : ℕ → List ℝ) (q : ℕ) (l : List ℕ) (hf : ∀ k ∈ l, (f k).length ≤ q) :
    (l.flatMap f).length ≤ l.length * q := by
  induction l with
  | nil => simp
  | cons a l ih =>
    rw [List.flatMap_cons, List.length_append, List.length_cons, Nat.succ_mul]
    have := ih fun k hk => hf k (by simp [hk])
    have := hf a (by simp)
    omega

theorem flatMap_length_lt (f : ℕ → List ℝ) (q : ℕ) (l : List ℕ) (hf : ∀ k ∈ l, (f k).length ≤ q)
    (hlt : ∃ k ∈ l, (f k).length < q) : (l.flatMap f).length < l.length * q := by
  induction l with
  | nil => simp at hlt
  | cons a l ih =>
    rw [List.flatMap_cons, List.length_append, List.length_cons, Nat.succ_mul]
    have h1 := flatMap_length_le f q l fun k hk => hf k (by simp [hk])
    have h2 := hf a (by simp)
    obtain ⟨k, hk, hk'⟩ := hlt
    rcases List.mem_cons.1 hk with rfl | h
    · omega
    · have := ih (fun k hk => hf k (by simp [hk])) ⟨k, h, hk'⟩
      omega

theorem hits_length_le {n : ℕ} {times : ℕ → ℝ} (h : StrictGrid n times) (hn : 0 < n) (vals : ℕ → ℝ) (t : ℝ) :
    (hits n times vals t).length ≤ 1 := by
  by_cases h0 : times 0 ≤ t
  · by_cases h1 : t ≤ times n
    · obtain ⟨v, e, -⟩ := hits_in_range hn h vals h0 h1
      rw [e]; simp
    · rw [hits_out_of_range h vals (Or.inr (not_le.1 h1))]; simp
  · rw [hits_out_of_range h vals (Or.inl (not_le.1 h0))]; simp

/-! ### counting -/

theorem countP_range (n m : ℕ) (p : ℕ → Bool) (hp : ∀ j < n, p j = true ↔ j < m) (hm : m ≤ n) :
    (List.range n).countP p = m := by
  induction n generalizing m with
  | zero => simp; omega
  | succ n ih =>
    rw [List.range_succ, List.countP_append, List.countP_singleton]
    by_cases h : m ≤ n
    · rw [ih m (fun j hj => hp j (by omega)) h, if_neg (by rw [hp n (by omega)]; omega), Nat.add_zero]
    · rw [ih n (fun j hj => by rw [hp j (by omega)]; omega) le_rfl, if_pos (by rw [hp n (by omega)]; omega)]
      omega

theorem countIdx_mid {n : ℕ} {times : ℕ → ℝ} (h : StrictGrid n times) {t : ℝ} {j : ℕ} (hj : j < n)
    (h1 : times j ≤ t) (h2 : t < times (j + 1)) : countIdx n times t = j + 1 := by
  unfold countIdx
  rw [countP_range (n + 1) (j + 1), Nat.mod_eq_of_lt (by omega)]
  · intro i hi
    simp only [decide_eq_true_eq, sub_nonpos]
    constructor
    · intro hle
      by_contra hlt
      have := grid_le h (i := j + 1) (j := i) (by omega) (by omega)
      linarith
    · intro hlt
      exact (grid_le h (i := i) (j := j) (by omega) (by omega)).trans h1
  · omega

theorem countIdx_last {n : ℕ} {times : ℕ → ℝ} (h : StrictGrid n times) {t : ℝ}
    (h1 : times n ≤ t) : countIdx n times t = 0 := by
  unfold countIdx
  rw [countP_range (n + 1) (n + 1), Nat.mod_self]
  · intro i hi
    simp only [decide_eq_true_eq, sub_nonpos]
    exact ⟨fun _ => hi, fun _ => (grid_le h (i := i) (j := n) (by omega) (by omega)).trans h1⟩
  · omega

theorem countIdx_before {n : ℕ} {times : ℕ → ℝ} (h : StrictGrid n times) {t : ℝ}
    (h1 : t < times 0) : countIdx n times t = 0 := by
  unfold countIdx
  rw [countP_range (n + 1) 0, Nat.zero_mod]
  · intro i hi
    simp only [decide_eq_true_eq, sub_nonpos]
    have := grid_le h (i := 0) (j := i) (by omega) (by omega)
    constructor
    · intro h'; linarith
    · omega
  · omega

/-- an in-range time before the last lies in a half open interval -/
theorem exists_interval {n : ℕ} {times : ℕ → ℝ} {t : ℝ} (h0 : times 0 ≤ t) (h1 : t < times n) :
    ∃ j < n, times j ≤ t ∧ t < times (j + 1) := by
  have hex : ∃ j, t < times j := ⟨n, h1⟩
  classical
  have hm := Nat.find_spec hex
  have hpos : Nat.find hex ≠ 0 := by
    intro h'
    rw [h'] at hm
    linarith
  have hle := Nat.find_min' hex h1
  refine ⟨Nat.find hex - 1, by omega, ?_, ?_⟩
  · have := Nat.find_min hex (m := Nat.find hex - 1) (by omega)
    exact not_lt.1 this
  · rw [Nat.sub_add_cancel (by omega)]; exact hm

theorem argmaxFirst_eq (p : ℕ → Bool) (len j : ℕ) (hj : j < len) (hp : p j = true) (hm : ∀ i < j, p i = false) :
    argmaxFirst p len = j := by
  unfold argmaxFirst
  have : (List.range len).find? p = some j := by
    rw [List.find?_range_eq_some]
    exact ⟨hp, by simpa using hj, fun i hi => by simp [hm i hi]⟩
  rw [this]; rfl

theorem argmaxFirst_none (p : ℕ → Bool) (len : ℕ) (hm : ∀ i < len, p i = false) : argmaxFirst p len = 0 := by
  unfold argmaxFirst
  have : (List.range len).find? p = none := by
    rw [List.find?_eq_none]
    intro i hi
    simp [hm i (List.mem_range.1 hi)]
  rw [this]; rfl

end Pyoptmat.Interp
