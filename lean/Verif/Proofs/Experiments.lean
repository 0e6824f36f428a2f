import Verif.Model.Experiments
import Verif.Spec.Experiments
import Mathlib.Data.List.GetD
import Mathlib.Tactic

namespace Pyoptmat.Experiments

open Pyoptmat.Spec

/-! ### Masks -/

lemma mem_select {n : ℕ} {m : ℕ → Bool} {b : ℕ} : b ∈ select n m ↔ b < n ∧ m b = true := by
  simp [select, List.mem_filter]

lemma select_nodup (n : ℕ) (m : ℕ → Bool) : (select n m).Nodup := List.nodup_range.filter m

lemma select_sorted (n : ℕ) (m : ℕ → Bool) : (select n m).Pairwise (· < ·) :=
  List.pairwise_lt_range.filter m

lemma getD_idxOf {l : List ℕ} {b : ℕ} (h : b ∈ l) : l.getD (l.idxOf b) 0 = b := by
  have hlt := List.idxOf_lt_length_of_mem h
  rw [List.getD_eq_getElem _ _ hlt]
  exact List.getElem_idxOf hlt

lemma takeCols_idxOf {α : Type} {l : List ℕ} {b : ℕ} (h : b ∈ l) (a : ℕ → ℕ → α) (t : ℕ) :
    takeCols l a t (l.idxOf b) = a t b := by
  rw [takeCols, getD_idxOf h]

lemma putCols_mem {α : Type} {l : List ℕ} {b : ℕ} (h : b ∈ l) (dst src : ℕ → ℕ → α) (t : ℕ) :
    putCols l dst src t b = src t (l.idxOf b) := if_pos h

lemma putCols_not_mem {α : Type} {l : List ℕ} {b : ℕ} (h : b ∉ l) (dst src : ℕ → ℕ → α) (t : ℕ) :
    putCols l dst src t b = dst t b := if_neg h

/-- the first selected index -/
lemma firstRow_select {n : ℕ} {m : ℕ → Bool} (h : (select n m).length ≠ 0) :
    FirstRow n (fun b => m b = true) ((select n m).getD 0 0) := by
  have hs := select_sorted n m
  have hmem : ∀ b, b ∈ select n m ↔ b < n ∧ m b = true := fun b => mem_select
  match hl : select n m, h with
  | a :: l, _ =>
    rw [hl] at hs hmem
    simp only [List.getD_cons_zero]
    have ha := (hmem a).1 (by simp)
    refine ⟨ha.1, ha.2, fun s hs' hp => ?_⟩
    have hin := (hmem s).2 ⟨hs'.trans ha.1, hp⟩
    rcases List.mem_cons.1 hin with h1 | h1
    · omega
    · have := (List.pairwise_cons.1 hs).1 s h1
      omega

lemma select_length_ne {n : ℕ} {m : ℕ → Bool} : (select n m).length ≠ 0 ↔ ∃ b < n, m b = true := by
  rw [Ne, List.length_eq_zero_iff, ← Ne, List.ne_nil_iff_exists_cons]
  constructor
  · rintro ⟨a, l, e⟩
    have : a ∈ select n m := by rw [e]; simp
    exact ⟨a, (mem_select.1 this).1, (mem_select.1 this).2⟩
  · rintro ⟨b, hb, hm⟩
    have : b ∈ select n m := mem_select.2 ⟨hb, hm⟩
    cases h : select n m with
    | nil => rw [h] at this; simp at this
    | cons a l => exact ⟨a, l, rfl⟩

/-! ### Maxima -/

lemma foldl_max_le (l : List ℝ) : ∀ a, a ≤ l.foldl max a ∧ (∀ x ∈ l, x ≤ l.foldl max a) ∧ (l.foldl max a = a ∨ l.foldl max a ∈ l) := by
  induction l with
  | nil => intro a; simp
  | cons y l ih =>
    intro a
    rw [List.foldl_cons]
    obtain ⟨h1, h2, h3⟩ := ih (max a y)
    refine ⟨(le_max_left _ _).trans h1, ?_, ?_⟩
    · intro x hx
      rcases List.mem_cons.1 hx with rfl | hx
      · exact (le_max_right _ _).trans h1
      · exact h2 x hx
    · rcases h3 with h3 | h3
      · rcases max_choice a y with h4 | h4
        · left; rw [h3, h4]
        · right; rw [h3, h4]; simp
      · right; simp [h3]

lemma colMax_spec {n : ℕ} (hn : 0 < n) (col : ℕ → ℝ) : (∃ s < n, col s = colMax n col) ∧ ∀ s < n, col s ≤ colMax n col := by
  obtain ⟨h1, h2, h3⟩ := foldl_max_le ((List.range n).tail.map col) (col 0)
  have hr : List.range n = 0 :: (List.range n).tail := by
    obtain ⟨m, rfl⟩ : ∃ m, n = m + 1 := ⟨n - 1, by omega⟩
    rw [List.range_succ_eq_map]; rfl
  constructor
  · rcases h3 with h3 | h3
    · exact ⟨0, hn, h3.symm⟩
    · obtain ⟨s, hs, e⟩ := List.mem_map.1 h3
      exact ⟨s, List.mem_range.1 (by rw [hr]; exact List.mem_cons_of_mem _ hs), e⟩
  · intro s hs
    have : s ∈ List.range n := List.mem_range.2 hs
    rw [hr] at this
    rcases List.mem_cons.1 this with rfl | h
    · exact h1
    · exact h2 _ (List.mem_map.2 ⟨s, h, rfl⟩)

lemma firstTrue_spec {n : ℕ} {p : ℕ → Bool} (h : ∃ s < n, p s = true) : FirstRow n (fun s => p s = true) (firstTrue n p) := by
  unfold firstTrue
  cases hf : (List.range n).find? p with
  | none =>
    obtain ⟨s, hs, hp⟩ := h
    have := List.find?_eq_none.1 hf s (List.mem_range.2 hs)
    exact absurd hp this
  | some r =>
    rw [Option.getD_some]
    rw [List.find?_range_eq_some] at hf
    refine ⟨hf.2.1 |> List.mem_range.1, hf.1, fun s hs hp => ?_⟩
    have := hf.2.2 s hs
    simp [hp] at this

/-- the largest value over the selected rows -/
lemma colMax_select {n : ℕ} {m : ℕ → Bool} (h : (select n m).length ≠ 0) (a : ℕ → ℕ → ℝ) (b : ℕ) :
    MaxOver n (fun s => m s = true) (fun s => a s b) (colMax (select n m).length fun r => takeRows (select n m) a r b) := by
  obtain ⟨⟨r, hr, e⟩, hmax⟩ := colMax_spec (Nat.pos_of_ne_zero h) fun r => takeRows (select n m) a r b
  have hget : ∀ r (hr : r < (select n m).length), (select n m).getD r 0 ∈ select n m := by
    intro r hr
    rw [List.getD_eq_getElem _ _ hr]
    exact List.getElem_mem hr
  refine ⟨⟨(select n m).getD r 0, (mem_select.1 (hget r hr)).1, (mem_select.1 (hget r hr)).2, e⟩, fun s hs hp => ?_⟩
  have hin : s ∈ select n m := mem_select.2 ⟨hs, hp⟩
  have := hmax _ (List.idxOf_lt_length_of_mem hin)
  simp only [takeRows, getD_idxOf hin] at this
  exact this

/-! ### The formatters -/

/-- `format_relaxation` -/
lemma formatRelaxation_spec (nt nb : ℕ) (cycles : ℕ → ℕ → ℤ) (pred : ℕ → ℕ → ℝ) :
    ((∃ t < nt, cycles t 0 = 1) → ∃ out, formatRelaxation nt nb cycles pred = .ok out ∧
      ∀ b, RelaxationResult nt (fun t => cycles t 0) (fun t => pred t b) fun t => out t b) ∧
    ((∀ t < nt, cycles t 0 ≠ 1) → ∃ e, formatRelaxation nt nb cycles pred = .error e) := by
  have hlen : (select nt fun t => cycles t 0 == 1).length ≠ 0 ↔ ∃ t < nt, cycles t 0 = 1 := by
    rw [select_length_ne]; simp
  constructor
  · intro h
    have h' := hlen.2 h
    refine ⟨_, by unfold formatRelaxation; rw [if_neg h'], fun b => ?_⟩
    have hf := firstRow_select h'
    refine ⟨_, ⟨hf.1, by simpa using hf.2.1, fun s hs => by simpa using hf.2.2 s hs⟩, fun t ht => ⟨fun hl => ?_, fun hl => ?_⟩⟩
    · have hin : t ∈ select nt fun t => cycles t 0 == 1 := mem_select.2 ⟨ht, by simpa using hl⟩
      simp only [putRows, if_pos hin, takeRows, getD_idxOf hin]
    · have hin : t ∉ select nt fun t => cycles t 0 == 1 := fun hc => hl (by simpa using (mem_select.1 hc).2)
      simp only [putRows, if_neg hin]
  · intro h
    have h' : (select nt fun t => cycles t 0 == 1).length = 0 := by
      by_contra hc
      obtain ⟨t, ht, e⟩ := hlen.1 hc
      exact h t ht e
    exact ⟨_, by unfold formatRelaxation; rw [if_pos h']⟩

/-- the state of `format_cyclic` after `m` passes -/
lemma cyclic_fold (nt : ℕ) (uc : ℕ → ℤ) (pred : ℕ → ℕ → ℝ) (m : ℕ) :
    ((∀ i < m, ∃ t < nt, uc t = i) → ∃ out, (List.range m).foldl (cyclicStep nt uc pred) (.ok fun _ _ => 0) = .ok out ∧
      ∀ t < nt, ∀ b, (0 ≤ uc t → uc t < m → MaxOver nt (fun s => uc s = uc t) (fun s => pred s b) (out t b)) ∧
        (uc t < 0 ∨ (m : ℤ) ≤ uc t → out t b = 0)) ∧
    ((∃ i < m, ∀ t < nt, uc t ≠ i) → ∃ e, (List.range m).foldl (cyclicStep nt uc pred) (.ok fun _ _ => 0) = .error e) := by
  induction m with
  | zero =>
    refine ⟨fun _ => ⟨_, rfl, fun t ht b => ⟨fun h1 h2 => by push_cast at h2; omega, fun _ => rfl⟩⟩, ?_⟩
    rintro ⟨i, hi, _⟩
    omega
  | succ m ih =>
    have hlen : (select nt fun t => uc t == (m : ℤ)).length ≠ 0 ↔ ∃ t < nt, uc t = m := by
      rw [select_length_ne]; simp
    rw [List.range_succ, List.foldl_append]
    constructor
    · intro h
      obtain ⟨out, e, hout⟩ := ih.1 fun i hi => h i (by omega)
      have h' := hlen.2 (h m (by omega))
      rw [e]
      refine ⟨_, by rw [List.foldl_cons, List.foldl_nil, cyclicStep]; simp only [if_neg h']; rfl, fun t ht b => ?_⟩
      by_cases hm : uc t = m
      · have hin : t ∈ select nt fun t => uc t == (m : ℤ) := mem_select.2 ⟨ht, by simpa using hm⟩
        refine ⟨fun _ _ => ?_, fun hc => ?_⟩
        · simp only [putRows, if_pos hin]
          have := colMax_select h' pred b
          rw [hm]
          simpa only [beq_iff_eq] using this
        · rcases hc with hc | hc
          · omega
          · push_cast at hc; omega
      · have hin : t ∉ select nt fun t => uc t == (m : ℤ) := fun hc => hm (by simpa using (mem_select.1 hc).2)
        simp only [putRows, if_neg hin]
        obtain ⟨h1, h2⟩ := hout t ht b
        refine ⟨fun a1 a2 => h1 a1 (by push_cast at a2; omega), fun hc => h2 ?_⟩
        rcases hc with hc | hc
        · exact Or.inl hc
        · right; push_cast at hc; omega
    · rintro ⟨i, hi, hno⟩
      by_cases hprev : ∃ i < m, ∀ t < nt, uc t ≠ i
      · obtain ⟨e, he⟩ := ih.2 hprev
        exact ⟨e, by rw [he]; rfl⟩
      · have him : i = m := by
          by_contra hne
          exact hprev ⟨i, by omega, hno⟩
        subst him
        have hall : ∀ j < i, ∃ t < nt, uc t = j := by
          intro j hj
          by_contra hc
          push Not at hc
          exact hprev ⟨j, hj, hc⟩
        obtain ⟨out, e, -⟩ := ih.1 hall
        have h' : (select nt fun t => uc t == (i : ℤ)).length = 0 := by
          by_contra hc
          obtain ⟨t, ht, e⟩ := hlen.1 hc
          exact hno t ht e
        rw [e]
        exact ⟨_, by rw [List.foldl_cons, List.foldl_nil, cyclicStep]; simp only [if_pos h']; rfl⟩

/-- `format_cyclic` -/
lemma formatCyclic_spec (nt nb : ℕ) (hnt : 0 < nt) (cycles : ℕ → ℕ → ℤ) (pred : ℕ → ℕ → ℝ) :
    ((∀ i : ℤ, 0 ≤ i → i ≤ cycles (nt - 1) 0 → ∃ t < nt, cycles t 0 = i) → ∃ out, formatCyclic nt nb cycles pred = .ok out ∧
      ∀ b, CyclicResult nt (fun t => cycles t 0) (fun t => pred t b) fun t => out t b) ∧
    ((∃ i : ℤ, 0 ≤ i ∧ i ≤ cycles (nt - 1) 0 ∧ ∀ t < nt, cycles t 0 ≠ i) → ∃ e, formatCyclic nt nb cycles pred = .error e) := by
  have hf := cyclic_fold nt (fun t => cycles t 0) pred (cycles (nt - 1) 0 + 1).toNat
  have e0 : formatCyclic nt nb cycles pred =
      (List.range (cycles (nt - 1) 0 + 1).toNat).foldl (cyclicStep nt (fun t => cycles t 0) pred) (.ok fun _ _ => 0) := by
    unfold formatCyclic
    rw [if_neg hnt.ne']
  rw [e0]
  constructor
  · intro h
    obtain ⟨out, e, hout⟩ := hf.1 fun i hi => h i (by omega) (by omega)
    refine ⟨out, e, fun b t ht => ⟨fun h1 h2 => (hout t ht b).1 h1 ?_, fun hc => (hout t ht b).2 ?_⟩⟩
    · simp only at h2 ⊢; omega
    · simp only at hc ⊢; omega
  · rintro ⟨i, h1, h2, h3⟩
    exact hf.2 ⟨i.toNat, by omega, fun t ht => by rw [Int.toNat_of_nonneg h1]; exact h3 t ht⟩

/-- `format_abstract_tensile` -/
lemma formatAbstractTensile_spec (nt nb : ℕ) (hnt : 0 < nt) (cycles : ℕ → ℕ → ℤ) (pred : ℕ → ℕ → ℝ) :
    ∃ out, formatAbstractTensile nt nb cycles pred = .ok out ∧
      ∀ b, AbstractTensileResult nt (fun t => cycles t b) (fun t => pred t b) fun t => out t b := by
  refine ⟨_, by unfold formatAbstractTensile; rw [if_neg hnt.ne'], fun b t ht => ⟨fun h => ?_, fun h => ?_, fun h1 h2 => ?_⟩⟩
  · have hf := firstTrue_spec (n := nt) (p := fun s => cycles s b == 1) ⟨t, ht, by simpa using h⟩
    refine ⟨_, ⟨hf.1, by simpa using hf.2.1, fun s hs => by simpa using hf.2.2 s hs⟩, ?_⟩
    simp [h]
  · have := colMax_spec hnt fun s => pred s b
    simp only [h]
    norm_num
    refine ⟨?_, fun s hs _ => this.2 s hs⟩
    obtain ⟨s, hs, e⟩ := this.1
    exact ⟨s, hs, trivial, e⟩
  · simp [h1, h2]

/-! ### The dispatch -/

lemma convert_error (nt nb : ℕ) (results : ℕ → ℕ → ℝ) (cycles : ℕ → ℕ → ℤ) (types : ℕ → ℤ) (l : List (ℤ × Formatter)) (e : String) :
    l.foldl (convertStep nt nb results cycles types) (.error e) = .error e := by
  induction l with
  | nil => rfl
  | cons p l ih => rw [List.foldl_cons]; exact ih

/-- the group of the tests of type `i` -/
abbrev group (nb : ℕ) (types : ℕ → ℤ) (i : ℤ) : List ℕ := select nb fun b => types b == i

lemma mem_group {nb : ℕ} {types : ℕ → ℤ} {i : ℤ} {b : ℕ} : b ∈ group nb types i ↔ b < nb ∧ types b = i := by
  rw [group, mem_select]; simp

lemma convert_fold (nt nb : ℕ) (results : ℕ → ℕ → ℝ) (cycles : ℕ → ℕ → ℤ) (types : ℕ → ℤ) (l : List (ℤ × Formatter))
    (hnd : (l.map Prod.fst).Nodup) : ∀ start : ℕ → ℕ → ℝ,
    ((∀ p ∈ l, (∃ b < nb, types b = p.1) → ∃ r, p.2 nt (group nb types p.1).length (takeCols (group nb types p.1) cycles)
        (takeCols (group nb types p.1) results) = .ok r) →
      ∃ out, l.foldl (convertStep nt nb results cycles types) (.ok start) = .ok out ∧
        (∀ p ∈ l, ∀ b < nb, types b = p.1 → ∃ r, p.2 nt (group nb types p.1).length (takeCols (group nb types p.1) cycles)
          (takeCols (group nb types p.1) results) = .ok r ∧ ∀ t, out t b = r t ((group nb types p.1).idxOf b)) ∧
        ∀ b < nb, (∀ p ∈ l, types b ≠ p.1) → ∀ t, out t b = start t b) ∧
    ((∃ p ∈ l, (∃ b < nb, types b = p.1) ∧ ∃ e, p.2 nt (group nb types p.1).length (takeCols (group nb types p.1) cycles)
        (takeCols (group nb types p.1) results) = .error e) →
      ∃ e, l.foldl (convertStep nt nb results cycles types) (.ok start) = .error e) := by
  induction l with
  | nil =>
    intro start
    exact ⟨fun _ => ⟨start, rfl, by simp, fun b _ _ t => rfl⟩, by rintro ⟨p, hp, -⟩; simp at hp⟩
  | cons p l ih =>
    intro start
    rw [List.map_cons, List.nodup_cons] at hnd
    have hlen : (group nb types p.1).length ≠ 0 ↔ ∃ b < nb, types b = p.1 := by
      rw [select_length_ne]; simp
    rw [List.foldl_cons]
    by_cases hg : ∃ b < nb, types b = p.1
    · have hg' : (group nb types p.1).length > 0 := Nat.pos_of_ne_zero (hlen.2 hg)
      cases hr : p.2 nt (group nb types p.1).length (takeCols (group nb types p.1) cycles) (takeCols (group nb types p.1) results) with
      | error e =>
        have hstep : convertStep nt nb results cycles types (.ok start) p = .error e := by
          unfold convertStep
          simp only [if_pos hg', hr]
        rw [hstep, convert_error]
        refine ⟨fun h => ?_, fun _ => ⟨e, rfl⟩⟩
        obtain ⟨r, h'⟩ := h p (by simp) hg
        rw [hr] at h'
        cases h'
      | ok r =>
        have hstep : convertStep nt nb results cycles types (.ok start) p = .ok (putCols (group nb types p.1) start r) := by
          unfold convertStep
          simp only [if_pos hg', hr]
        rw [hstep]
        obtain ⟨ih1, ih2⟩ := ih hnd.2 (putCols (group nb types p.1) start r)
        constructor
        · intro h
          obtain ⟨out, e, h1, h2⟩ := ih1 fun p' hp' => h p' (by simp [hp'])
          refine ⟨out, e, ?_, ?_⟩
          · intro p' hp' b hb ht
            rcases List.mem_cons.1 hp' with rfl | hp'
            · refine ⟨r, hr, fun t => ?_⟩
              rw [h2 b hb ?_ t, putCols_mem (mem_group.2 ⟨hb, ht⟩)]
              intro p'' hp'' hc
              exact hnd.1 (List.mem_map.2 ⟨p'', hp'', by rw [← hc, ht]⟩)
            · exact h1 p' hp' b hb ht
          · intro b hb hno t
            rw [h2 b hb (fun p' hp' => hno p' (by simp [hp'])) t, putCols_not_mem]
            intro hc
            exact hno p (by simp) (mem_group.1 hc).2
        · rintro ⟨p', hp', hgp, e, he⟩
          rcases List.mem_cons.1 hp' with rfl | hp'
          · rw [hr] at he; cases he
          · exact ih2 ⟨p', hp', hgp, e, he⟩
    · have hg' : ¬ (group nb types p.1).length > 0 := fun hc => hg (hlen.1 (by omega))
      have hstep : convertStep nt nb results cycles types (.ok start) p = .ok start := by
        unfold convertStep
        simp only [if_neg hg']
      rw [hstep]
      obtain ⟨ih1, ih2⟩ := ih hnd.2 start
      constructor
      · intro h
        obtain ⟨out, e, h1, h2⟩ := ih1 fun p' hp' => h p' (by simp [hp'])
        refine ⟨out, e, ?_, fun b hb hno t => h2 b hb (fun p' hp' => hno p' (by simp [hp'])) t⟩
        intro p' hp' b hb ht
        rcases List.mem_cons.1 hp' with rfl | hp'
        · exact absurd ⟨b, hb, ht⟩ hg
        · exact h1 p' hp' b hb ht
      · rintro ⟨p', hp', hgp, e, he⟩
        rcases List.mem_cons.1 hp' with rfl | hp'
        · exact absurd hgp hg
        · exact ih2 ⟨p', hp', hgp, e, he⟩

end Pyoptmat.Experiments
