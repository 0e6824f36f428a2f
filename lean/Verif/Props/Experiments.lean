import Verif.Proofs.Experiments

/-!
# Properties C60–C65: processing of test results, loading, noise and weights

`nt` rows (times), `nb` columns (tests). The specifications `CyclicResult`, `RelaxationResult`, `AbstractTensileResult` are in
`Verif.Spec.Experiments`.
-/

namespace Pyoptmat.Props

open Pyoptmat.Experiments Pyoptmat.Spec

/-! ### C60 -/

/-- **C60** (`format_cyclic`). At least one row. If every cycle number from 0 to the last label of the *first* test occurs among the labels of the first
test, the call succeeds, and in every test every row gets the largest value of *this* test over the rows of its cycle, cycles
being those of the first test; rows with other labels get zero. If one of these numbers is missing, the call fails. -/
theorem C60_cyclic (nt nb : ℕ) (hnt : 0 < nt) (cycles : ℕ → ℕ → ℤ) (predictions : ℕ → ℕ → ℝ) :
    ((∀ i : ℤ, 0 ≤ i → i ≤ cycles (nt - 1) 0 → ∃ t < nt, cycles t 0 = i) →
      ∃ out, formatCyclic nt nb cycles predictions = .ok out ∧
        ∀ b, CyclicResult nt (fun t => cycles t 0) (fun t => predictions t b) fun t => out t b) ∧
    ((∃ i : ℤ, 0 ≤ i ∧ i ≤ cycles (nt - 1) 0 ∧ ∀ t < nt, cycles t 0 ≠ i) → ∃ e, formatCyclic nt nb cycles predictions = .error e) :=
  formatCyclic_spec nt nb hnt cycles predictions

/-- **C60** (meaning). On rows of the same cycle the result is constant, it bounds the values of the cycle, it is attained, and it is determined by the specification. -/
theorem C60_meaning (nt : ℕ) (label : ℕ → ℤ) (col out : ℕ → ℝ) (h : CyclicResult nt label col out) :
    (∀ s < nt, ∀ t < nt, label s = label t → out s = out t) ∧
    (∀ t < nt, 0 ≤ label t → label t ≤ label (nt - 1) → col t ≤ out t ∧ ∃ s < nt, label s = label t ∧ out t = col s) ∧
    ∀ out', CyclicResult nt label col out' → ∀ t < nt, out' t = out t := by
  have uniq : ∀ (p : ℕ → Prop) (v w : ℝ), MaxOver nt p col v → MaxOver nt p col w → v = w := by
    rintro p v w ⟨⟨s, hs, ps, rfl⟩, hv⟩ ⟨⟨s', hs', ps', rfl⟩, hw⟩
    exact le_antisymm (hw s hs ps) (hv s' hs' ps')
  refine ⟨fun s hs t ht e => ?_, fun t ht h0 h1 => ?_, fun out' h' t ht => ?_⟩
  · obtain ⟨a1, a2⟩ := h s hs
    obtain ⟨b1, b2⟩ := h t ht
    by_cases hc : 0 ≤ label t ∧ label t ≤ label (nt - 1)
    · have m1 := a1 (by rw [e]; exact hc.1) (by rw [e]; exact hc.2)
      rw [e] at m1
      exact uniq _ _ _ m1 (b1 hc.1 hc.2)
    · have hc' : label t < 0 ∨ label (nt - 1) < label t := by omega
      rw [b2 hc', a2 (by rw [e]; exact hc')]
  · obtain ⟨⟨s, hs, ps, e⟩, hm⟩ := (h t ht).1 h0 h1
    exact ⟨hm t ht rfl, s, hs, ps, e.symm⟩
  · by_cases hc : 0 ≤ label t ∧ label t ≤ label (nt - 1)
    · exact uniq _ _ _ ((h' t ht).1 hc.1 hc.2) ((h t ht).1 hc.1 hc.2)
    · have hc' : label t < 0 ∨ label (nt - 1) < label t := by omega
      rw [(h' t ht).2 hc', (h t ht).2 hc']

/-! ### C61 -/

/-- **C61** (`format_relaxation`). If the *first* test has a row with label 1, the call succeeds, and in every test the rows where the first test has label 1
get the change since the first such row, the others zero. If the first test has no such row the call fails, whatever the labels of the other tests. -/
theorem C61_relaxation (nt nb : ℕ) (cycles : ℕ → ℕ → ℤ) (predictions : ℕ → ℕ → ℝ) :
    ((∃ t < nt, cycles t 0 = 1) → ∃ out, formatRelaxation nt nb cycles predictions = .ok out ∧
      ∀ b, RelaxationResult nt (fun t => cycles t 0) (fun t => predictions t b) fun t => out t b) ∧
    ((∀ t < nt, cycles t 0 ≠ 1) → ∃ e, formatRelaxation nt nb cycles predictions = .error e) :=
  formatRelaxation_spec nt nb cycles predictions

/-- **C61** (the labels of the other tests are ignored). Both formatters give the same result for any two sets of labels that agree on the first test. -/
theorem C61_only_first_labels (nt nb : ℕ) (cycles cycles' : ℕ → ℕ → ℤ) (h : ∀ t < nt, cycles t 0 = cycles' t 0)
    (predictions : ℕ → ℕ → ℝ) :
    formatRelaxation nt nb cycles predictions = formatRelaxation nt nb cycles' predictions ∧
    formatCyclic nt nb cycles predictions = formatCyclic nt nb cycles' predictions := by
  have hsel : ∀ i : ℤ, select nt (fun t => cycles t 0 == i) = select nt fun t => cycles' t 0 == i := by
    intro i
    apply List.filter_congr
    intro t ht
    rw [h t (List.mem_range.1 ht)]
  constructor
  · unfold formatRelaxation
    simp only [hsel]
  · unfold formatCyclic
    by_cases hnt : nt = 0
    · simp [hnt]
    · simp only [if_neg hnt, h (nt - 1) (by omega)]
      have : cyclicStep nt (fun t => cycles t 0) predictions = cyclicStep nt (fun t => cycles' t 0) predictions := by
        funext acc i
        unfold cyclicStep
        simp only [hsel]
      rw [this]

/-! ### C62 -/

/-- **C62** (`format_abstract_tensile`). With at least one row the call succeeds for all labels and values, and each test, by its own labels, gets the value at its first row
with label 1 on its rows with label 1, its overall largest value on rows with label 2, and zero elsewhere. -/
theorem C62_abstract_tensile (nt nb : ℕ) (hnt : 0 < nt) (cycles : ℕ → ℕ → ℤ) (predictions : ℕ → ℕ → ℝ) :
    ∃ out, formatAbstractTensile nt nb cycles predictions = .ok out ∧
      ∀ b, AbstractTensileResult nt (fun t => cycles t b) (fun t => predictions t b) fun t => out t b :=
  formatAbstractTensile_spec nt nb hnt cycles predictions

/-! ### C63 -/

/-- Test number `l` is the first of the tests of type `i`. -/
def Leader (nb : ℕ) (types : ℕ → ℤ) (i : ℤ) (l : ℕ) : Prop := FirstRow nb (fun b => types b = i) l

/-- The leader of every relaxation or creep group has a hold, and the leader of every cyclic group has all cycles. -/
def GoodLabels (nt nb : ℕ) (cycles : ℕ → ℕ → ℤ) (types : ℕ → ℤ) : Prop :=
  (∀ i l, (i = 1 ∨ i = 3) → Leader nb types i l → ∃ t < nt, cycles t l = 1) ∧
  ∀ i l, (i = 2 ∨ i = 4) → Leader nb types i l → ∀ j : ℤ, 0 ≤ j → j ≤ cycles (nt - 1) l → ∃ t < nt, cycles t l = j

private lemma leader_group {nb : ℕ} {types : ℕ → ℤ} {i : ℤ} (h : ∃ b < nb, types b = i) :
    Leader nb types i ((group nb types i).getD 0 0) := by
  have := firstRow_select (n := nb) (m := fun b => types b == i) (select_length_ne.2 (by simpa using h))
  exact ⟨this.1, by simpa using this.2.1, fun s hs => by simpa using this.2.2 s hs⟩

private lemma leader_unique {nb : ℕ} {types : ℕ → ℤ} {i : ℤ} {l l' : ℕ} (h : Leader nb types i l) (h' : Leader nb types i l') : l = l' := by
  rcases lt_trichotomy l l' with hlt | rfl | hlt
  · exact absurd h.2.1 (h'.2.2 l hlt)
  · rfl
  · exact absurd h'.2.1 (h.2.2 l' hlt)

private lemma codes_nodup : (expFnsNum.map Prod.fst).Nodup := by
  simp [expFnsNum]

/-- **C63** (each test is processed by the function of its type). At least one row. When the labels are good, `convert_results` succeeds, and for every test: a tensile or direct-data test is returned as
is; a relaxation or creep test, a cyclic test, get their `RelaxationResult`, `CyclicResult` by the labels of the *first test of the same
type*; an abstract tensile test gets its `AbstractTensileResult` by its own labels; a test of any other type keeps the uninitialised
memory. When the labels are not good, the call fails. -/
theorem C63_dispatch (nt nb : ℕ) (hnt : 0 < nt) (garbage results : ℕ → ℕ → ℝ) (cycles : ℕ → ℕ → ℤ) (types : ℕ → ℤ) :
    (GoodLabels nt nb cycles types → ∃ out, convertResults nt nb garbage results cycles types = .ok out ∧ ∀ b < nb,
      (types b = 0 ∨ types b = 6 → ∀ t, out t b = results t b) ∧
      (types b = 1 ∨ types b = 3 → ∀ l, Leader nb types (types b) l →
        RelaxationResult nt (fun t => cycles t l) (fun t => results t b) fun t => out t b) ∧
      (types b = 2 ∨ types b = 4 → ∀ l, Leader nb types (types b) l →
        CyclicResult nt (fun t => cycles t l) (fun t => results t b) fun t => out t b) ∧
      (types b = 5 → AbstractTensileResult nt (fun t => cycles t b) (fun t => results t b) fun t => out t b) ∧
      (types b < 0 ∨ 6 < types b → ∀ t, out t b = garbage t b)) ∧
    (¬ GoodLabels nt nb cycles types → ∃ e, convertResults nt nb garbage results cycles types = .error e) := by
  have hfold := convert_fold nt nb results cycles types expFnsNum codes_nodup garbage
  -- the two kinds of formatter that can fail
  have rel := fun i => formatRelaxation_spec nt (group nb types i).length (takeCols (group nb types i) cycles)
    (takeCols (group nb types i) results)
  have cyc := fun i => formatCyclic_spec nt (group nb types i).length hnt (takeCols (group nb types i) cycles)
    (takeCols (group nb types i) results)
  have abst := fun i => formatAbstractTensile_spec nt (group nb types i).length hnt (takeCols (group nb types i) cycles)
    (takeCols (group nb types i) results)
  have hcyc0 : ∀ i t, takeCols (group nb types i) cycles t 0 = cycles t ((group nb types i).getD 0 0) := fun _ _ => rfl
  constructor
  · rintro ⟨hgR, hgC⟩
    have relOk : ∀ i, (i = 1 ∨ i = 3) → (∃ b < nb, types b = i) → ∃ t < nt, takeCols (group nb types i) cycles t 0 = 1 := by
      intro i hi hb
      exact hgR i _ hi (leader_group hb)
    have cycOk : ∀ i, (i = 2 ∨ i = 4) → (∃ b < nb, types b = i) → ∀ j : ℤ, 0 ≤ j → j ≤ takeCols (group nb types i) cycles (nt - 1) 0 →
        ∃ t < nt, takeCols (group nb types i) cycles t 0 = j := by
      intro i hi hb
      exact hgC i _ hi (leader_group hb)
    have hok : ∀ p ∈ expFnsNum, (∃ b < nb, types b = p.1) → ∃ r, p.2 nt (group nb types p.1).length
        (takeCols (group nb types p.1) cycles) (takeCols (group nb types p.1) results) = .ok r := by
      intro p hp hb
      simp only [expFnsNum, List.mem_cons, List.not_mem_nil, or_false] at hp
      rcases hp with rfl | rfl | rfl | rfl | rfl | rfl | rfl
      · exact ⟨_, rfl⟩
      · obtain ⟨r, e, -⟩ := (rel 1).1 (relOk 1 (by norm_num) hb); exact ⟨r, e⟩
      · obtain ⟨r, e, -⟩ := (cyc 2).1 (cycOk 2 (by norm_num) hb); exact ⟨r, e⟩
      · obtain ⟨r, e, -⟩ := (rel 3).1 (relOk 3 (by norm_num) hb); exact ⟨r, e⟩
      · obtain ⟨r, e, -⟩ := (cyc 4).1 (cycOk 4 (by norm_num) hb); exact ⟨r, e⟩
      · obtain ⟨r, e, -⟩ := abst 5; exact ⟨r, e⟩
      · exact ⟨_, rfl⟩
    obtain ⟨out, e, h1, h2⟩ := hfold.1 hok
    refine ⟨out, e, fun b hb => ⟨?_, ?_, ?_, ?_, ?_⟩⟩
    · rintro (ht | ht) t
      · obtain ⟨r, hr, ho⟩ := h1 (0, formatTensile) (by simp [expFnsNum]) b hb ht
        simp only [formatTensile, Except.ok.injEq] at hr
        rw [ho, ← hr, takeCols_idxOf (mem_group.2 ⟨hb, ht⟩)]
      · obtain ⟨r, hr, ho⟩ := h1 (6, formatDirectData) (by simp [expFnsNum]) b hb ht
        simp only [formatDirectData, Except.ok.injEq] at hr
        rw [ho, ← hr, takeCols_idxOf (mem_group.2 ⟨hb, ht⟩)]
    · have key : ∀ i, (i = 1 ∨ i = 3) → types b = i → (i, formatRelaxation) ∈ expFnsNum → ∀ l, Leader nb types i l →
          RelaxationResult nt (fun t => cycles t l) (fun t => results t b) fun t => out t b := by
        intro i hi ht hmem l hl
        have hbi : ∃ b < nb, types b = i := ⟨b, hb, ht⟩
        obtain rfl := leader_unique hl (leader_group hbi)
        obtain ⟨r, hr, ho⟩ := h1 (i, formatRelaxation) hmem b hb ht
        obtain ⟨r', hr', hspec⟩ := (rel i).1 (relOk i hi hbi)
        simp only [] at hr
        rw [hr] at hr'
        obtain rfl : r = r' := Except.ok.inj hr'
        have := hspec ((group nb types i).idxOf b)
        simp only [takeCols_idxOf (mem_group.2 ⟨hb, ht⟩), hcyc0] at this
        simpa only [ho] using this
      rintro (ht | ht) l hl
      · rw [ht] at hl; exact key 1 (by norm_num) ht (by simp [expFnsNum]) l hl
      · rw [ht] at hl; exact key 3 (by norm_num) ht (by simp [expFnsNum]) l hl
    · have key : ∀ i, (i = 2 ∨ i = 4) → types b = i → (i, formatCyclic) ∈ expFnsNum → ∀ l, Leader nb types i l →
          CyclicResult nt (fun t => cycles t l) (fun t => results t b) fun t => out t b := by
        intro i hi ht hmem l hl
        have hbi : ∃ b < nb, types b = i := ⟨b, hb, ht⟩
        obtain rfl := leader_unique hl (leader_group hbi)
        obtain ⟨r, hr, ho⟩ := h1 (i, formatCyclic) hmem b hb ht
        obtain ⟨r', hr', hspec⟩ := (cyc i).1 (cycOk i hi hbi)
        simp only [] at hr
        rw [hr] at hr'
        obtain rfl : r = r' := Except.ok.inj hr'
        have := hspec ((group nb types i).idxOf b)
        simp only [takeCols_idxOf (mem_group.2 ⟨hb, ht⟩), hcyc0] at this
        simpa only [ho] using this
      rintro (ht | ht) l hl
      · rw [ht] at hl; exact key 2 (by norm_num) ht (by simp [expFnsNum]) l hl
      · rw [ht] at hl; exact key 4 (by norm_num) ht (by simp [expFnsNum]) l hl
    · intro ht
      obtain ⟨r, hr, ho⟩ := h1 (5, formatAbstractTensile) (by simp [expFnsNum]) b hb ht
      obtain ⟨r', hr', hspec⟩ := abst 5
      simp only [] at hr
      rw [hr] at hr'
      obtain rfl : r = r' := Except.ok.inj hr'
      have := hspec ((group nb types 5).idxOf b)
      simp only [takeCols_idxOf (mem_group.2 ⟨hb, ht⟩)] at this
      simpa only [ho] using this
    · intro ht t
      refine h2 b hb ?_ t
      intro p hp
      simp only [expFnsNum, List.mem_cons, List.not_mem_nil, or_false] at hp
      rcases hp with rfl | rfl | rfl | rfl | rfl | rfl | rfl <;> simp only [ne_eq] <;> omega
  · intro hbad
    apply hfold.2
    rw [GoodLabels, not_and_or] at hbad
    rcases hbad with hbad | hbad
    · push Not at hbad
      obtain ⟨i, l, hi, hl, hno⟩ := hbad
      have hbi : ∃ b < nb, types b = i := ⟨l, hl.1, hl.2.1⟩
      obtain rfl := leader_unique hl (leader_group hbi)
      obtain ⟨e, he⟩ := (rel i).2 hno
      refine ⟨(i, formatRelaxation), ?_, hbi, e, he⟩
      rcases hi with rfl | rfl <;> simp [expFnsNum]
    · push Not at hbad
      obtain ⟨i, l, hi, hl, j, h0, h1, hno⟩ := hbad
      have hbi : ∃ b < nb, types b = i := ⟨l, hl.1, hl.2.1⟩
      obtain rfl := leader_unique hl (leader_group hbi)
      obtain ⟨e, he⟩ := (cyc i).2 ⟨j, h0, h1, hno⟩
      refine ⟨(i, formatCyclic), ?_, hbi, e, he⟩
      rcases hi with rfl | rfl <;> simp [expFnsNum]

/-- **C63** (tests are independent of each other). Two batches with the same types and labels, and the same values of test `b`: when both calls succeed, test `b`
is turned into the same result, whatever the other tests are. -/
theorem C63_independent (nt nb : ℕ) (hnt : 0 < nt) (g g' results results' : ℕ → ℕ → ℝ) (cycles : ℕ → ℕ → ℤ) (types : ℕ → ℤ) (b : ℕ)
    (hb : b < nb) (htype : 0 ≤ types b ∧ types b ≤ 6) (hsame : ∀ t, results t b = results' t b) (out out' : ℕ → ℕ → ℝ)
    (h : convertResults nt nb g results cycles types = .ok out) (h' : convertResults nt nb g' results' cycles types = .ok out') :
    ∀ t < nt, out t b = out' t b := by
  have d := C63_dispatch nt nb hnt g results cycles types
  have d' := C63_dispatch nt nb hnt g' results' cycles types
  have hg : GoodLabels nt nb cycles types := by
    by_contra hc
    obtain ⟨e, he⟩ := d.2 hc
    rw [h] at he
    cases he
  obtain ⟨o, ho, s⟩ := d.1 hg
  obtain ⟨o', ho', s'⟩ := d'.1 hg
  rw [h] at ho
  rw [h'] at ho'
  obtain rfl : out = o := Except.ok.inj ho
  obtain rfl : out' = o' := Except.ok.inj ho'
  have s := s b hb
  have s' := s' b hb
  have hcol : (fun t => results t b) = fun t => results' t b := funext hsame
  have hl := leader_group (nb := nb) (types := types) (i := types b) ⟨b, hb, rfl⟩
  have huniqF : ∀ (p : ℕ → Prop) r r', FirstRow nt p r → FirstRow nt p r' → r = r' := by
    intro p r r' h1 h2
    rcases lt_trichotomy r r' with hlt | rfl | hlt
    · exact absurd h1.2.1 (h2.2.2 r hlt)
    · rfl
    · exact absurd h2.2.1 (h1.2.2 r' hlt)
  intro t ht
  have hcases : (types b = 0 ∨ types b = 6) ∨ (types b = 1 ∨ types b = 3) ∨ (types b = 2 ∨ types b = 4) ∨ types b = 5 := by omega
  rcases hcases with hc | hc | hc | hc
  · rw [s.1 hc, s'.1 hc, hsame]
  · have e1 := s.2.1 hc _ hl
    have e2 := s'.2.1 hc _ hl
    rw [← hcol] at e2
    obtain ⟨r, hr, h1⟩ := e1
    obtain ⟨r', hr', h2⟩ := e2
    obtain rfl := huniqF _ _ _ hr hr'
    by_cases hlab : cycles t ((group nb types (types b)).getD 0 0) = 1
    · exact ((h1 t ht).1 hlab).trans ((h2 t ht).1 hlab).symm
    · exact ((h1 t ht).2 hlab).trans ((h2 t ht).2 hlab).symm
  · have e1 := s.2.2.1 hc _ hl
    have e2 := s'.2.2.1 hc _ hl
    rw [← hcol] at e2
    exact (C60_meaning _ _ _ _ e2).2.2 _ e1 t ht
  · have e1 := s.2.2.2.1 hc t ht
    have e2 := s'.2.2.2.1 hc t ht
    rw [← hcol] at e2
    by_cases h1 : cycles t b = 1
    · obtain ⟨r, hr, v⟩ := e1.1 h1
      obtain ⟨r', hr', v'⟩ := e2.1 h1
      obtain rfl := huniqF _ _ _ hr hr'
      exact v.trans v'.symm
    · by_cases h2 : cycles t b = 2
      · obtain ⟨⟨q, hq, -, v⟩, m⟩ := e1.2.1 h2
        obtain ⟨⟨q', hq', -, v'⟩, m'⟩ := e2.2.1 h2
        have a := m q' hq' trivial
        have a' := m' q hq trivial
        simp only at v v' a a'
        linarith
      · exact (e1.2.2 h1 h2).trans (e2.2.2 h1 h2).symm

/-- **C63** (own labels). When all tests of a type share their labels, the relaxation, creep and cyclic results are those by the test's own labels. -/
theorem C63_own_labels (nt nb : ℕ) (hnt : 0 < nt) (garbage results : ℕ → ℕ → ℝ) (cycles : ℕ → ℕ → ℤ) (types : ℕ → ℤ)
    (hshare : ∀ b < nb, ∀ b' < nb, types b = types b' → ∀ t < nt, cycles t b = cycles t b') (out : ℕ → ℕ → ℝ)
    (h : convertResults nt nb garbage results cycles types = .ok out) (b : ℕ) (hb : b < nb) :
    (types b = 1 ∨ types b = 3 → RelaxationResult nt (fun t => cycles t b) (fun t => results t b) fun t => out t b) ∧
    (types b = 2 ∨ types b = 4 → CyclicResult nt (fun t => cycles t b) (fun t => results t b) fun t => out t b) := by
  have d := C63_dispatch nt nb hnt garbage results cycles types
  have hg : GoodLabels nt nb cycles types := by
    by_contra hc
    obtain ⟨e, he⟩ := d.2 hc
    rw [h] at he
    cases he
  obtain ⟨o, ho, s⟩ := d.1 hg
  rw [h] at ho
  obtain rfl : out = o := Except.ok.inj ho
  have s := s b hb
  have hl := leader_group (nb := nb) (types := types) (i := types b) ⟨b, hb, rfl⟩
  set l := (group nb types (types b)).getD 0 0
  have hlb : ∀ t < nt, cycles t l = cycles t b := hshare l hl.1 b hb hl.2.1
  constructor
  · intro hc
    obtain ⟨r, hr, hs⟩ := s.2.1 hc l hl
    refine ⟨r, ⟨hr.1, ?_, fun q hq hp => ?_⟩, fun t ht => ⟨fun ht1 => ?_, fun ht1 => ?_⟩⟩
    · exact (hlb r hr.1).symm.trans hr.2.1
    · exact hr.2.2 q hq ((hlb q (hq.trans hr.1)).trans hp)
    · exact (hs t ht).1 ((hlb t ht).trans ht1)
    · exact (hs t ht).2 fun hc' => ht1 ((hlb t ht).symm.trans hc')
  · intro hc t ht
    have hs := s.2.2.1 hc l hl t ht
    simp only [hlb t ht, hlb (nt - 1) (by omega)] at hs
    refine ⟨fun h0 h1 => ?_, hs.2⟩
    obtain ⟨⟨q, hq, hp, e⟩, hm⟩ := hs.1 h0 h1
    exact ⟨⟨q, hq, (hlb q hq).symm.trans hp, e⟩, fun q hq hp => hm q hq ((hlb q hq).trans hp)⟩

/-- Non-vacuity: a batch with a tensile, a cyclic and a relaxation test, and one whose type is unknown. -/
example : ∃ out, convertResults 4 4 (fun _ _ => 99) (fun t b => (10 * b + t : ℝ)) (fun t b => if b = 2 then (if t < 2 then 0 else 1) else (t / 2 : ℕ))
      (fun b => [0, 2, 1, 9].getD b 0) = .ok out ∧ (∀ t, out t 0 = t) ∧ (∀ t, out t 3 = 99) := by
  obtain ⟨out, e, h⟩ := (C63_dispatch 4 4 (by norm_num) (fun _ _ => 99) (fun t b => (10 * b + t : ℝ))
    (fun t b => if b = 2 then (if t < 2 then 0 else 1) else (t / 2 : ℕ)) (fun b => [0, 2, 1, 9].getD b 0)).1 (by
      have hlead : ∀ i l, Leader 4 (fun b => [(0 : ℤ), 2, 1, 9].getD b 0) i l → (i = 1 → l = 2) ∧ (i = 2 → l = 1) ∧ i ≠ 3 ∧ i ≠ 4 := by
        rintro i l ⟨hl, ht, -⟩
        interval_cases l <;> simp at ht <;> omega
      constructor
      · intro i l hi hl
        have := hlead i l hl
        rcases hi with rfl | rfl
        · obtain rfl := this.1 rfl
          exact ⟨2, by norm_num, by simp⟩
        · exact absurd rfl this.2.2.1
      · intro i l hi hl
        have := hlead i l hl
        rcases hi with rfl | rfl
        · obtain rfl := this.2.1 rfl
          intro j h0 h1
          norm_num at h1
          rcases (by omega : j = 0 ∨ j = 1) with rfl | rfl
          · exact ⟨0, by norm_num, by simp⟩
          · exact ⟨2, by norm_num, by simp⟩
        · exact absurd rfl this.2.2.2)
  refine ⟨out, e, fun t => ?_, fun t => ?_⟩
  · have := (h 0 (by norm_num)).1 (by simp) t
    simpa using this
  · exact (h 3 (by norm_num)).2.2.2.2 (by simp) t

/-! ### C64 -/

private lemma lookup_control (s : String) : (lookup controlMap s = .ok 0 ↔ s = "strain") ∧ (lookup controlMap s = .ok 1 ↔ s = "stress") ∧
    (s ≠ "strain" → s ≠ "stress" → lookup controlMap s = .error "KeyError") := by
  by_cases h1 : s = "strain"
  · subst h1; simp [lookup, controlMap]
  · by_cases h2 : s = "stress"
    · subst h2; simp [lookup, controlMap]
    · have e1 : ("strain" == s) = false := by simpa using fun h => h1 h.symm
      have e2 : ("stress" == s) = false := by simpa using fun h => h2 h.symm
      simp [lookup, controlMap, List.find?, e1, e2, h1, h2]

private lemma mapCodes_ok (m : List (String × ℤ)) (n : ℕ) (names : ℕ → String) :
    ((∀ b < n, ∃ i, lookup m (names b) = .ok i) → ∃ c, mapCodes m n names = .ok c ∧ ∀ b < n, lookup m (names b) = .ok (c b)) ∧
    ((∃ b < n, ∃ e, lookup m (names b) = .error e) → ∃ e, mapCodes m n names = .error e) := by
  constructor
  · intro h
    refine ⟨fun b => ((lookup m (names b)).toOption).getD 0, ?_, fun b hb => ?_⟩
    · unfold mapCodes
      rw [if_pos]
      rw [List.all_eq_true]
      intro b hb
      obtain ⟨i, hi⟩ := h b (List.mem_range.1 hb)
      rw [hi]
      rfl
    · obtain ⟨i, hi⟩ := h b hb
      simp only [hi, Except.toOption, Option.getD_some]
  · rintro ⟨b, hb, e, he⟩
    refine ⟨"KeyError", ?_⟩
    unfold mapCodes
    rw [if_neg]
    rw [List.all_eq_true]
    intro hc
    have := hc b (List.mem_range.2 hb)
    rw [he] at this
    simp [Except.toOption] at this

/-- **C64** (`load_results`). For every data set in which all types and controls are known names: the call succeeds; times, temperatures and labels are returned as they are; each test gets the numerical code of its own type and of its control;
for a strain controlled test the driving history is the strain and the result the stress, for a stress controlled test the other way round, whatever the uninitialised memory held. If a
type or control is unknown, the call fails. -/
theorem C64_load_results (g2 gr : ℕ → ℕ → ℝ) (x : Dataset) :
    ((∀ b < x.nb, (∃ i, lookup expMap (x.type b) = .ok i) ∧ (x.control b = "strain" ∨ x.control b = "stress")) →
      ∃ r, loadResults g2 gr x = .ok r ∧ r.data0 = x.time ∧ r.data1 = x.temperature ∧ r.cycle = x.cycle ∧
        ∀ b < x.nb, lookup expMap (x.type b) = .ok (r.types b) ∧
          (x.control b = "strain" → r.control b = 0 ∧ ∀ t, r.data2 t b = x.strain t b ∧ r.results t b = x.stress t b) ∧
          (x.control b = "stress" → r.control b = 1 ∧ ∀ t, r.data2 t b = x.stress t b ∧ r.results t b = x.strain t b)) ∧
    ((∃ b < x.nb, (∃ e, lookup expMap (x.type b) = .error e) ∨ (x.control b ≠ "strain" ∧ x.control b ≠ "stress")) →
      ∃ e, loadResults g2 gr x = .error e) := by
  have ht := mapCodes_ok expMap x.nb x.type
  have hc := mapCodes_ok controlMap x.nb x.control
  constructor
  · intro h
    obtain ⟨types, et, hty⟩ := ht.1 fun b hb => (h b hb).1
    obtain ⟨control, ec, hco⟩ := hc.1 fun b hb => by
      rcases (h b hb).2 with h' | h'
      · exact ⟨0, (lookup_control _).1.2 h'⟩
      · exact ⟨1, (lookup_control _).2.1.2 h'⟩
    refine ⟨_, by unfold loadResults; rw [et, ec], rfl, rfl, rfl, fun b hb => ⟨hty b hb, fun hs => ?_, fun hs => ?_⟩⟩
    · have c0 : control b = 0 := by
        have := hco b hb
        rw [(lookup_control _).1.2 hs] at this
        exact (Except.ok.inj this).symm
      have m0 : b ∈ select x.nb fun b => control b == 0 := mem_select.2 ⟨hb, by simp [c0]⟩
      have m1 : b ∉ select x.nb fun b => control b == 1 := fun hm => by
        have := (mem_select.1 hm).2
        simp [c0] at this
      refine ⟨c0, fun t => ⟨?_, ?_⟩⟩ <;> simp only [putCols_not_mem m1, putCols_mem m0, takeCols_idxOf m0]
    · have c1 : control b = 1 := by
        have := hco b hb
        rw [(lookup_control _).2.1.2 hs] at this
        exact (Except.ok.inj this).symm
      have m1 : b ∈ select x.nb fun b => control b == 1 := mem_select.2 ⟨hb, by simp [c1]⟩
      refine ⟨c1, fun t => ⟨?_, ?_⟩⟩ <;> simp only [putCols_mem m1, takeCols_idxOf m1]
  · rintro ⟨b, hb, h | h⟩
    · obtain ⟨e, he⟩ := ht.2 ⟨b, hb, h⟩
      exact ⟨e, by unfold loadResults; rw [he]⟩
    · obtain ⟨e, he⟩ := hc.2 ⟨b, hb, _, (lookup_control _).2.2 h.1 h.2⟩
      unfold loadResults
      rw [he]
      cases mapCodes expMap x.nb x.type with
      | error e' => exact ⟨e', rfl⟩
      | ok _ => exact ⟨e, rfl⟩

/-- **C64** (the codes). The codes of the seven type names are distinct and run from 0 to 6, so `convert_results` knows every type that `load_results` can return. -/
theorem C64_codes (s : String) (i : ℤ) (h : lookup expMap s = .ok i) :
    0 ≤ i ∧ i ≤ 6 ∧ ∀ s', lookup expMap s' = .ok i → s' = s := by
  have key : ∀ s i, lookup expMap s = .ok i → (s, i) ∈ expMap := by
    intro s i h
    unfold lookup at h
    cases hf : expMap.find? (fun p => p.1 == s) with
    | none => rw [hf] at h; cases h
    | some p =>
      rw [hf] at h
      have h1 := List.mem_of_find?_eq_some hf
      have h2 := List.find?_some hf
      simp only [beq_iff_eq] at h2
      simp only [Except.ok.injEq] at h
      rw [← h, ← h2]
      exact h1
  have hm := key s i h
  simp only [expMap, List.mem_cons, Prod.mk.injEq, List.not_mem_nil, or_false] at hm
  refine ⟨by omega, by omega, fun s' h' => ?_⟩
  have hm' := key s' i h'
  simp only [expMap, List.mem_cons, Prod.mk.injEq, List.not_mem_nil, or_false] at hm'
  rcases hm with ⟨rfl, rfl⟩ | ⟨rfl, rfl⟩ | ⟨rfl, rfl⟩ | ⟨rfl, rfl⟩ | ⟨rfl, rfl⟩ | ⟨rfl, rfl⟩ | ⟨rfl, rfl⟩ <;> simpa using hm'

example : lookup expMap "creep" = .ok 3 := by simp [lookup, expMap]

/-! ### C65 -/

private lemma noise_fold (l : List ℝ) (types : ℕ → ℤ) (is : List ℕ) : ∀ start : ℕ → ℝ,
    ((∀ i ∈ is, i < l.length) → ∃ out, is.foldl (noiseStep l types) (.ok start) = .ok out ∧
      (∀ b, (∀ i ∈ is, types b ≠ (i : ℤ)) → out b = start b) ∧ ∀ b, ∀ i ∈ is, types b = (i : ℤ) → l[i]? = some (out b)) ∧
    ((∃ i ∈ is, l.length ≤ i) → ∃ e, is.foldl (noiseStep l types) (.ok start) = .error e) := by
  have herr : ∀ (is : List ℕ) e, is.foldl (noiseStep l types) (.error e) = .error e := by
    intro is e
    induction is with
    | nil => rfl
    | cons a is ih => rw [List.foldl_cons]; exact ih
  induction is with
  | nil => intro start; exact ⟨fun _ => ⟨start, rfl, fun _ _ => rfl, by simp⟩, by simp⟩
  | cons a is ih =>
    intro start
    rw [List.foldl_cons]
    by_cases ha : a < l.length
    · have hstep : noiseStep l types (.ok start) a = .ok fun b => if types b = (a : ℤ) then l[a] else start b := by
        simp only [noiseStep, List.getElem?_eq_getElem ha]
      rw [hstep]
      obtain ⟨ih1, ih2⟩ := ih fun b => if types b = (a : ℤ) then l[a] else start b
      constructor
      · intro h
        obtain ⟨out, e, h1, h2⟩ := ih1 fun i hi => h i (by simp [hi])
        refine ⟨out, e, fun b hb => ?_, fun b i hi ht => ?_⟩
        · rw [h1 b fun i hi => hb i (by simp [hi]), if_neg (hb a (by simp))]
        · by_cases hin : i ∈ is
          · exact h2 b i hin ht
          · have : i = a := by
              rcases List.mem_cons.1 hi with h' | h'
              · exact h'
              · exact absurd h' hin
            subst this
            rw [h1 b ?_, if_pos ht, List.getElem?_eq_getElem ha]
            intro j hj hc
            have : j = i := by have := hc.symm.trans ht; exact_mod_cast this
            exact hin (this ▸ hj)
      · rintro ⟨i, hi, hle⟩
        rcases List.mem_cons.1 hi with rfl | hi
        · omega
        · exact ih2 ⟨i, hi, hle⟩
    · have hstep : noiseStep l types (.ok start) a = .error "index is out of bounds for dimension 0" := by
        simp only [noiseStep, List.getElem?_eq_none (not_lt.1 ha)]
      rw [hstep, herr]
      exact ⟨fun h => absurd (h a (by simp)) ha, fun _ => ⟨_, rfl⟩⟩

/-- **C65** (noise by type). A scalar noise applies to every test. A noise vector with at least seven entries gives each test of a known type the entry of
its type; a test of any other type keeps the uninitialised memory. A shorter vector is refused, even if no test has the missing types. -/
theorem C65_noise (garbage : ℕ → ℝ) (types : ℕ → ℤ) (v : ℝ) (l : List ℝ) :
    (∃ out, fullNoise garbage (.inl v) types = .ok out ∧ ∀ b, out b = v) ∧
    (7 ≤ l.length → ∃ out, fullNoise garbage (.inr l) types = .ok out ∧
      (∀ b, 0 ≤ types b → types b ≤ 6 → l[(types b).toNat]? = some (out b)) ∧ ∀ b, (types b < 0 ∨ 6 < types b) → out b = garbage b) ∧
    (l.length < 7 → ∃ e, fullNoise garbage (.inr l) types = .error e) := by
  have hmap : expMap.map (fun p => p.2.toNat) = [0, 1, 2, 3, 4, 5, 6] := rfl
  refine ⟨⟨_, rfl, fun _ => rfl⟩, fun h => ?_, fun h => ?_⟩
  · obtain ⟨out, e, h1, h2⟩ := (noise_fold l types [0, 1, 2, 3, 4, 5, 6] garbage).1 (by
      intro i hi
      simp only [List.mem_cons, List.not_mem_nil, or_false] at hi
      omega)
    refine ⟨out, by unfold fullNoise; rw [hmap]; exact e, fun b h0 h6 => ?_, fun b hb => ?_⟩
    · refine h2 b (types b).toNat ?_ (by omega)
      simp only [List.mem_cons, List.not_mem_nil, or_false]
      omega
    · refine h1 b fun i hi => ?_
      simp only [List.mem_cons, List.not_mem_nil, or_false] at hi
      omega
  · obtain ⟨e, he⟩ := (noise_fold l types [0, 1, 2, 3, 4, 5, 6] garbage).2 ⟨6, by simp, by omega⟩
    exact ⟨e, by unfold fullNoise; rw [hmap]; exact he⟩

private lemma weight_fold (table : List (ℤ × ℝ)) (types : ℕ → ℤ) (b : ℕ) : ∀ w : ℕ → ℝ,
    ((∀ p ∈ table, types b ≠ p.1) → table.foldl (fun w p => fun b => if types b = p.1 then p.2 else w b) w b = w b) ∧
    ((table.map Prod.fst).Nodup → ∀ p ∈ table, types b = p.1 →
      table.foldl (fun w p => fun b => if types b = p.1 then p.2 else w b) w b = p.2) := by
  induction table with
  | nil => intro w; exact ⟨fun _ => rfl, fun _ p hp => by simp at hp⟩
  | cons a table ih =>
    intro w
    rw [List.foldl_cons]
    obtain ⟨h1, h2⟩ := ih fun b => if types b = a.1 then a.2 else w b
    constructor
    · intro h
      rw [h1 fun p hp => h p (by simp [hp]), if_neg (h a (by simp))]
    · intro hnd p hp ht
      rw [List.map_cons, List.nodup_cons] at hnd
      rcases List.mem_cons.1 hp with rfl | hp
      · rw [h1, if_pos ht]
        intro p' hp' hc
        exact hnd.1 (List.mem_map.2 ⟨p', hp', by rw [← hc, ht]⟩)
      · exact h2 hnd.2 p hp ht

/-- **C65** (weights by type). By default every test of a known type has weight one, and of another type weight zero. With a table of weights by distinct
names, every test whose type is in the table gets the weight of its type, and every other test gets weight *zero* (which makes the hierarchical model refuse to run, see C92); an unknown name is
refused. -/
theorem C65_weights (types : ℕ → ℤ) (w : List (String × ℝ)) :
    (∃ table, weightTable none = .ok table ∧ ∀ b, (0 ≤ types b → types b ≤ 6 → weightTensor table types b = 1) ∧
      (types b < 0 ∨ 6 < types b → weightTensor table types b = 0)) ∧
    ((∀ p ∈ w, ∃ i, lookup expMap p.1 = .ok i) → (w.map Prod.fst).Nodup → ∃ table, weightTable (some w) = .ok table ∧ ∀ b,
      (∀ p ∈ w, lookup expMap p.1 = .ok (types b) → weightTensor table types b = p.2) ∧
      ((∀ p ∈ w, lookup expMap p.1 ≠ .ok (types b)) → weightTensor table types b = 0)) ∧
    ((∃ p ∈ w, ∃ e, lookup expMap p.1 = .error e) → ∃ e, weightTable (some w) = .error e) := by
  refine ⟨⟨_, rfl, fun b => ⟨fun h0 h6 => ?_, fun h => ?_⟩⟩, ?_, ?_⟩
  · have hmem : (types b, (1 : ℝ)) ∈ expMap.map fun p => (p.2, (1 : ℝ)) := by
      simp only [expMap, List.map_cons, List.map_nil, List.mem_cons, Prod.mk.injEq, and_true, List.not_mem_nil, or_false]
      omega
    exact (weight_fold _ types b _).2 (by simp [expMap]) _ hmem rfl
  · refine (weight_fold _ types b _).1 fun p hp => ?_
    simp only [expMap, List.map_cons, List.map_nil, List.mem_cons, List.not_mem_nil, or_false] at hp
    rcases hp with rfl | rfl | rfl | rfl | rfl | rfl | rfl <;> simp only [ne_eq] <;> omega
  · intro hk hnd
    have hok : ∃ table, weightTable (some w) = .ok table ∧ List.Forall₂ (fun p q => lookup expMap p.1 = .ok q.1 ∧ q.2 = p.2) w table := by
      unfold weightTable
      simp only
      clear hnd
      induction w with
      | nil => exact ⟨[], rfl, List.Forall₂.nil⟩
      | cons p w ih =>
        obtain ⟨i, hi⟩ := hk p (by simp)
        obtain ⟨table, et, hf⟩ := ih fun q hq => hk q (by simp [hq])
        refine ⟨(i, p.2) :: table, ?_, List.Forall₂.cons ⟨hi, rfl⟩ hf⟩
        rw [List.mapM_cons, hi, et]
        rfl
    obtain ⟨table, et, hf⟩ := hok
    have hcode : ∀ s s' i, lookup expMap s = .ok i → lookup expMap s' = .ok i → s' = s := fun s s' i h h' => (C64_codes s i h).2.2 s' h'
    have hmem : ∀ q ∈ table, ∃ p ∈ w, lookup expMap p.1 = .ok q.1 ∧ q.2 = p.2 := by
      clear et hk hnd
      induction hf with
      | nil => simp
      | cons h _ ih =>
        intro q hq
        rcases List.mem_cons.1 hq with rfl | hq
        · exact ⟨_, by simp, h⟩
        · obtain ⟨p, hp, h'⟩ := ih q hq
          exact ⟨p, by simp [hp], h'⟩
    have hmem' : ∀ p ∈ w, ∃ q ∈ table, lookup expMap p.1 = .ok q.1 ∧ q.2 = p.2 := by
      clear et hk hnd hmem
      induction hf with
      | nil => simp
      | cons h _ ih =>
        intro q hq
        rcases List.mem_cons.1 hq with rfl | hq
        · exact ⟨_, by simp, h⟩
        · obtain ⟨p, hp, h'⟩ := ih q hq
          exact ⟨p, by simp [hp], h'⟩
    have hnd' : (table.map Prod.fst).Nodup := by
      clear et hk hmem hmem'
      induction hf with
      | nil => simp
      | @cons p q w table h hf ih =>
        rw [List.map_cons, List.nodup_cons] at hnd ⊢
        refine ⟨fun hc => ?_, ih hnd.2⟩
        obtain ⟨q', hq', e⟩ := List.mem_map.1 hc
        have : ∃ p' ∈ w, lookup expMap p'.1 = .ok q'.1 := by
          clear hc ih hnd
          induction hf with
          | nil => simp at hq'
          | cons h' _ ih =>
            rcases List.mem_cons.1 hq' with rfl | hq'
            · exact ⟨_, by simp, h'.1⟩
            · obtain ⟨p', hp', h''⟩ := ih hq'
              exact ⟨p', by simp [hp'], h''⟩
        obtain ⟨p', hp', e'⟩ := this
        exact hnd.1 (List.mem_map.2 ⟨p', hp', hcode _ _ q.1 h.1 (by rw [← e]; exact e')⟩)
    refine ⟨table, et, fun b => ⟨fun p hp hl => ?_, fun hno => ?_⟩⟩
    · obtain ⟨q, hq, h1, h2⟩ := hmem' p hp
      rw [hl] at h1
      have := (weight_fold table types b fun _ => 0).2 hnd' q hq (Except.ok.inj h1)
      unfold weightTensor
      rw [this, h2]
    · refine (weight_fold table types b fun _ => 0).1 fun q hq hc => ?_
      obtain ⟨p, hp, h1, -⟩ := hmem q hq
      exact hno p hp (by rw [h1, hc])
  · rintro ⟨p, hp, e, he⟩
    unfold weightTable
    simp only
    induction w with
    | nil => simp at hp
    | cons q w ih =>
      rw [List.mapM_cons]
      cases hq : lookup expMap q.1 with
      | error e' => exact ⟨e', rfl⟩
      | ok i =>
        rcases List.mem_cons.1 hp with rfl | hp
        · rw [hq] at he; cases he
        · obtain ⟨e', he'⟩ := ih hp
          rw [he']
          exact ⟨e', rfl⟩

example : (∃ i, lookup expMap "tensile" = .ok i) ∧ ∃ e, lookup expMap "fatigue" = .error e :=
  ⟨⟨0, by simp [lookup, expMap]⟩, "KeyError", by simp [lookup, expMap]⟩

end Pyoptmat.Props
