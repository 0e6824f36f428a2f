import Verif.Model.Visualize
import Mathlib.Data.Fintype.Card
import Mathlib.Tactic.Linarith
import Mathlib.Tactic.Ring
import Mathlib.Tactic.NormNum

/-!
# C117: the bands drawn by `visualize_variance`
-/

namespace Pyoptmat.Props

open Pyoptmat.Visualize

private theorem card_filter_ofFn {n : ℕ} (x : Fin n → ℝ) (p : ℝ → Prop) [DecidablePred p] : (Finset.univ.filter fun j => p (x j)).card = ((List.ofFn x).filter p).length := by
  rw [List.ofFn_eq_map, List.filter_map, List.length_map]
  rw [Finset.card_def, Finset.filter_val, ← Multiset.coe_card]
  rfl

private theorem filter_drop {s : List ℝ} {p : ℝ → Prop} [DecidablePred p] {i : ℕ} (h : ∀ y ∈ s.drop i, ¬ p y) : (s.filter p).length ≤ i := by
  have e : (s.drop i).filter p = [] := by rw [List.filter_eq_nil_iff]; intro y hy; simpa using h y hy
  have : s.filter p = (s.take i).filter p ++ (s.drop i).filter p := by rw [← List.filter_append, List.take_append_drop]
  rw [this, e, List.append_nil]
  exact (List.length_filter_le _ _).trans (by rw [List.length_take]; omega)

private theorem filter_take {s : List ℝ} {p : ℝ → Prop} [DecidablePred p] {i : ℕ} (h : ∀ y ∈ s.take i, ¬ p y) : (s.filter p).length ≤ s.length - i := by
  have e : (s.take i).filter p = [] := by rw [List.filter_eq_nil_iff]; intro y hy; simpa using h y hy
  have : s.filter p = (s.take i).filter p ++ (s.drop i).filter p := by rw [← List.filter_append, List.take_append_drop]
  rw [this, e, List.nil_append]
  exact (List.length_filter_le _ _).trans (by rw [List.length_drop])

/-- The `k`-th value is one of the samples, with at most `k - 1` samples below and at most `n - k` above. -/
private theorem kth_spec {n : ℕ} (x : Fin n → ℝ) {k : ℕ} (hk : 1 ≤ k) (hkn : k ≤ n) : ∃ y, kthvalue x k = .ok y ∧ (∃ j, x j = y) ∧
    (Finset.univ.filter fun j => x j < y).card ≤ k - 1 ∧ (Finset.univ.filter fun j => y < x j).card ≤ n - k := by
  set s := (List.ofFn x).insertionSort (· ≤ ·) with hs
  have hp : s.Perm (List.ofFn x) := List.perm_insertionSort _ _
  have hlen : s.length = n := by rw [hp.length_eq, List.length_ofFn]
  have hsort : s.Pairwise (· ≤ ·) := List.pairwise_insertionSort _ _
  have hlt : k - 1 < s.length := by omega
  have hmono : ∀ (a b : ℕ) (ha : a < s.length) (hb : b < s.length), a ≤ b → s[a] ≤ s[b] := by
    intro a b ha hb hab
    rcases Nat.lt_or_ge a b with h | h
    · exact List.pairwise_iff_getElem.1 hsort a b ha hb h
    · obtain rfl : a = b := by omega
      exact le_rfl
  refine ⟨s[k - 1], ?_, ?_, ?_, ?_⟩
  · unfold kthvalue
    rw [if_pos ⟨by omega, by omega⟩, Int.toNat_natCast]
    congr 1
    simp [List.getD, hlt, ← hs]
  · have : s[k - 1] ∈ List.ofFn x := hp.mem_iff.1 (List.getElem_mem hlt)
    rw [List.mem_ofFn] at this
    exact this
  · rw [card_filter_ofFn x (· < s[k - 1]), ← (hp.filter _).length_eq]
    refine filter_drop fun y hy => ?_
    obtain ⟨i, hi, rfl⟩ := List.mem_iff_getElem.1 hy
    rw [List.length_drop] at hi
    rw [List.getElem_drop]
    exact not_lt.2 (hmono _ _ _ _ (by omega))
  · rw [card_filter_ofFn x (s[k - 1] < ·), ← (hp.filter _).length_eq, ← hlen]
    refine filter_take fun y hy => ?_
    obtain ⟨i, hi, rfl⟩ := List.mem_iff_getElem.1 hy
    rw [List.length_take] at hi
    rw [List.getElem_take]
    exact not_lt.2 (hmono _ _ _ _ (by omega))

private theorem floors {n : ℕ} {alpha : ℝ} (ha : 0 ≤ alpha) (ha2 : alpha ≤ 1 / 2) (h : 1 ≤ alpha * n) :
    ∃ k k' : ℕ, ⌊(n : ℝ) * alpha⌋ = k ∧ ⌊(n : ℝ) * (1 - alpha)⌋ = k' ∧ 1 ≤ k ∧ k ≤ k' ∧ k' ≤ n ∧ (k : ℝ) ≤ n * alpha ∧ (n : ℝ) * (1 - alpha) < k' + 1 := by
  have hn : (0 : ℝ) ≤ n := Nat.cast_nonneg n
  have h1 : (1 : ℤ) ≤ ⌊(n : ℝ) * alpha⌋ := Int.le_floor.2 (by push_cast; linarith)
  have h2 : ⌊(n : ℝ) * alpha⌋ ≤ ⌊(n : ℝ) * (1 - alpha)⌋ := Int.floor_le_floor (by nlinarith)
  have h3 : ⌊(n : ℝ) * (1 - alpha)⌋ ≤ n := by
    have : ⌊(n : ℝ) * (1 - alpha)⌋ ≤ ⌊(n : ℝ)⌋ := Int.floor_le_floor (by nlinarith)
    simpa using this
  obtain ⟨k, hk⟩ := Int.eq_ofNat_of_zero_le (show (0 : ℤ) ≤ ⌊(n : ℝ) * alpha⌋ by omega)
  obtain ⟨k', hk'⟩ := Int.eq_ofNat_of_zero_le (show (0 : ℤ) ≤ ⌊(n : ℝ) * (1 - alpha)⌋ by omega)
  refine ⟨k, k', hk, hk', by omega, by omega, by omega, ?_, ?_⟩
  · have := Int.floor_le ((n : ℝ) * alpha)
    rw [hk] at this; exact_mod_cast this
  · have := Int.lt_floor_add_one ((n : ℝ) * (1 - alpha))
    rw [hk'] at this; exact_mod_cast this

private theorem kths {nt n : ℕ} (x : Fin nt → Fin n → ℝ) {k : ℕ} (hk : 1 ≤ k) (hkn : k ≤ n) : ∃ y : Fin nt → ℝ, kthvalues x k = .ok y ∧ ∀ t, (∃ j, x t j = y t) ∧
    (Finset.univ.filter fun j => x t j < y t).card ≤ k - 1 ∧ (Finset.univ.filter fun j => y t < x t j).card ≤ n - k := by
  refine ⟨_, by unfold kthvalues; rw [if_pos ⟨by omega, by omega⟩], fun t => ?_⟩
  obtain ⟨y, h1, h2, h3, h4⟩ := kth_spec (x t) hk hkn
  rw [h1]
  exact ⟨h2, h3, h4⟩

/-- What the band of one table of samples shows. `lower` and `upper` are samples; at most a fraction `alpha` lies below the band, less than one sample more than that above it, and at least a
fraction `1 - 2 alpha` inside. -/
def BandIs {nt n : ℕ} (strain : Fin nt → ℝ) (x : Fin nt → Fin n → ℝ) (alpha : ℝ) (d : Drawn nt) : Prop :=
  d.strain = strain ∧ ∀ t : Fin nt, n * d.mean t = ∑ j, x t j ∧ (∃ j, x t j = d.lower t) ∧ (∃ j, x t j = d.upper t) ∧ d.lower t ≤ d.upper t ∧
    ((Finset.univ.filter fun j => x t j < d.lower t).card : ℝ) ≤ n * alpha - 1 ∧
    ((Finset.univ.filter fun j => d.upper t < x t j).card : ℝ) < n * alpha + 1 ∧
    (n : ℝ) * (1 - 2 * alpha) ≤ (Finset.univ.filter fun j => d.lower t ≤ x t j ∧ x t j ≤ d.upper t).card

private theorem band_ok {nt n : ℕ} (strain : Fin nt → ℝ) (x : Fin nt → Fin n → ℝ) {alpha : ℝ} (ha : 0 ≤ alpha) (ha2 : alpha ≤ 1 / 2) (h : 1 ≤ alpha * n) :
    ∃ d, band strain x alpha = .ok d ∧ BandIs strain x alpha d := by
  obtain ⟨k, k', e, e', h1, h2, h3, h4, h5⟩ := floors ha ha2 h
  obtain ⟨hi, f1, f2⟩ := kths x (h1.trans h2) h3
  obtain ⟨lo, g1, g2⟩ := kths x h1 (h2.trans h3)
  refine ⟨{ strain := strain, mean := fun t => (∑ j, x t j) / n, lower := lo, upper := hi }, ?_, rfl, fun t => ?_⟩
  · unfold band
    rw [e, e', f1]
    dsimp only
    rw [g1]
  · obtain ⟨f3, f4, f5⟩ := f2 t
    obtain ⟨g3, g4, g5⟩ := g2 t
    have hn : (n : ℝ) ≠ 0 := by
      have : 0 < n := by omega
      exact_mod_cast this.ne'
    have f5' : ((Finset.univ.filter fun j => hi t < x t j).card : ℝ) ≤ n - k' := by
      have : (Finset.univ.filter fun j => hi t < x t j).card + k' ≤ n := by omega
      have : (((Finset.univ.filter fun j => hi t < x t j).card + k' : ℕ) : ℝ) ≤ n := by exact_mod_cast this
      push_cast at this; linarith
    have g4' : ((Finset.univ.filter fun j => x t j < lo t).card : ℝ) ≤ k - 1 := by
      have : (Finset.univ.filter fun j => x t j < lo t).card + 1 ≤ k := by omega
      have : (((Finset.univ.filter fun j => x t j < lo t).card + 1 : ℕ) : ℝ) ≤ k := by exact_mod_cast this
      push_cast at this; linarith
    have hall : n ≤ (Finset.univ.filter fun j => x t j < lo t).card + (Finset.univ.filter fun j => hi t < x t j).card +
        (Finset.univ.filter fun j => lo t ≤ x t j ∧ x t j ≤ hi t).card := by
      have : (Finset.univ : Finset (Fin n)) ⊆ (Finset.univ.filter fun j => x t j < lo t) ∪ (Finset.univ.filter fun j => hi t < x t j) ∪ (Finset.univ.filter fun j => lo t ≤ x t j ∧ x t j ≤ hi t) := by
        intro j _
        simp only [Finset.mem_union, Finset.mem_filter, Finset.mem_univ, true_and]
        by_cases c1 : x t j < lo t
        · exact .inl (.inl c1)
        · by_cases c2 : hi t < x t j
          · exact .inl (.inr c2)
          · exact .inr ⟨not_lt.1 c1, not_lt.1 c2⟩
      have h6 := Finset.card_le_card this
      rw [Finset.card_univ, Fintype.card_fin] at h6
      have h7 := Finset.card_union_le ((Finset.univ.filter fun j => x t j < lo t) ∪ (Finset.univ.filter fun j => hi t < x t j)) (Finset.univ.filter fun j => lo t ≤ x t j ∧ x t j ≤ hi t)
      have h8 := Finset.card_union_le (Finset.univ.filter fun j => x t j < lo t) (Finset.univ.filter fun j => hi t < x t j)
      omega
    have hall' : (n : ℝ) ≤ (Finset.univ.filter fun j => x t j < lo t).card + (Finset.univ.filter fun j => hi t < x t j).card +
        (Finset.univ.filter fun j => lo t ≤ x t j ∧ x t j ≤ hi t).card := by exact_mod_cast hall
    refine ⟨mul_div_cancel₀ _ hn, g3, f3, ?_, ?_, ?_, ?_⟩
    · dsimp only
      by_contra hcon
      rw [not_le] at hcon
      -- every sample is below `lo` or above `hi`
      have h6 : (Finset.univ.filter fun j => lo t ≤ x t j ∧ x t j ≤ hi t).card = 0 := by
        rw [Finset.card_eq_zero, Finset.filter_eq_empty_iff]
        rintro j - ⟨h7, h8⟩
        linarith
      omega
    · dsimp only; linarith
    · dsimp only; nlinarith
    · dsimp only; nlinarith

/-- **C117.** With `0 ≤ alpha ≤ 1/2` and at least `1 / alpha` samples on both sides the call succeeds and draws, for the true and for the predicted samples, the mean and a band that at every strain
leaves out at most a fraction `alpha` of the samples below, less than one sample more above, and contains at least a fraction `1 - 2 alpha` of them. -/
theorem C117_bands {nt ntrue npred : ℕ} (strain : Fin nt → ℝ) (true_ : Fin nt → Fin ntrue → ℝ) (pred : Fin nt → Fin npred → ℝ) {alpha : ℝ} (ha : 0 ≤ alpha) (ha2 : alpha ≤ 1 / 2)
    (h1 : 1 ≤ alpha * ntrue) (h2 : 1 ≤ alpha * npred) :
    ∃ a b, visualizeVariance strain true_ pred alpha = .ok (a, b) ∧ BandIs strain true_ alpha a ∧ BandIs strain pred alpha b := by
  obtain ⟨a, e1, f1⟩ := band_ok strain true_ ha ha2 h1
  obtain ⟨b, e2, f2⟩ := band_ok strain pred ha ha2 h2
  refine ⟨a, b, ?_, f1, f2⟩
  unfold visualizeVariance
  rw [e1]
  dsimp only
  rw [e2]

private theorem band_refused {nt n : ℕ} (strain : Fin nt → ℝ) (x : Fin nt → Fin n → ℝ) {alpha : ℝ} (h : alpha * n < 1) : ∃ msg, band strain x alpha = .error msg := by
  unfold band
  cases h1 : kthvalues x ⌊(n : ℝ) * (1 - alpha)⌋ with
  | error e => exact ⟨e, rfl⟩
  | ok hi =>
    have h2 : kthvalues x ⌊(n : ℝ) * alpha⌋ = .error "kthvalue(): selected number k out of range for dimension" := by
      unfold kthvalues
      rw [if_neg]
      rintro ⟨h3, -⟩
      have := Int.le_floor.1 h3
      push_cast at this
      linarith
    dsimp only
    rw [h2]
    exact ⟨_, rfl⟩

/-- **C117** (refused). With fewer than `1 / alpha` true or predicted samples the call raises an exception: with the default `alpha = 0.05` every data set of fewer than twenty tests. -/
theorem C117_few_samples_refused {nt ntrue npred : ℕ} (strain : Fin nt → ℝ) (true_ : Fin nt → Fin ntrue → ℝ) (pred : Fin nt → Fin npred → ℝ) {alpha : ℝ}
    (h : alpha * ntrue < 1 ∨ alpha * npred < 1) : ∃ msg, visualizeVariance strain true_ pred alpha = .error msg := by
  unfold visualizeVariance
  cases h1 : band strain true_ alpha with
  | error e => exact ⟨e, rfl⟩
  | ok a =>
    rcases h with h | h
    · obtain ⟨msg, h2⟩ := band_refused strain true_ h
      rw [h2] at h1; cases h1
    · obtain ⟨msg, h2⟩ := band_refused strain pred h
      dsimp only
      rw [h2]
      exact ⟨_, rfl⟩

/-- Non-vacuity: twenty true samples and forty predicted ones with the default `alpha`. -/
example (strain : Fin 3 → ℝ) (x : Fin 3 → Fin 20 → ℝ) (y : Fin 3 → Fin 40 → ℝ) : ∃ a b, visualizeVariance strain x y 0.05 = .ok (a, b) ∧ BandIs strain x 0.05 a ∧ BandIs strain y 0.05 b :=
  C117_bands strain x y (by norm_num) (by norm_num) (by norm_num) (by norm_num)

/-- Non-vacuity: nineteen samples are refused with the default `alpha`. -/
example (strain : Fin 3 → ℝ) (x : Fin 3 → Fin 19 → ℝ) (y : Fin 3 → Fin 40 → ℝ) : ∃ msg, visualizeVariance strain x y 0.05 = .error msg :=
  C117_few_samples_refused strain x y (.inl (by norm_num))

end Pyoptmat.Props
