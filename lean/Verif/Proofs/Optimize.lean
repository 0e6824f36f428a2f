import Verif.Spec.Optimize
import Mathlib.Tactic

/-! # Proofs about the statistical models -/

namespace Pyoptmat.Optimize

open Pyoptmat.Experiments ProbabilityTheory

/-! ### Densities -/

theorem exp_logNormal {x loc scale : ℝ} (h : 0 < scale) : Real.exp (logNormal x loc scale) = normalPDF x loc scale := by
  have h2 : (0 : ℝ) < √(2 * Real.pi) := Real.sqrt_pos.2 (by positivity)
  unfold logNormal normalPDF gaussianPDFReal
  rw [Real.coe_toNNReal _ (by positivity), Real.exp_sub, Real.exp_sub, Real.exp_log h, Real.exp_log h2,
    Real.sqrt_mul (by positivity) (scale ^ 2), Real.sqrt_sq h.le]
  field_simp

theorem normalPDF_pos {x loc scale : ℝ} (h : 0 < scale) : 0 < normalPDF x loc scale := by
  rw [← exp_logNormal h]
  exact Real.exp_pos _

theorem exp_logHalfNormal {x scale : ℝ} (h : 0 < scale) (hx : 0 ≤ x) : Real.exp (logHalfNormal x scale) = halfNormalPDF x scale := by
  have : normalPDF (-x) 0 scale = normalPDF x 0 scale := by
    unfold normalPDF gaussianPDFReal
    simp
  unfold logHalfNormal halfNormalPDF
  rw [if_pos hx, this, Real.exp_add, exp_logNormal h, Real.exp_log (by norm_num)]
  ring

theorem halfNormalPDF_pos {x scale : ℝ} (h : 0 < scale) (hx : 0 ≤ x) : 0 < halfNormalPDF x scale := by
  rw [← exp_logHalfNormal h hx]
  exact Real.exp_pos _

/-! ### Lookups -/

/-- The store after `pyro.param`. -/
def ps (store : List (String × Val)) (n : String) (init : Val) : List (String × Val) :=
  match lk store n with
  | some _ => store
  | none => store ++ [(n, init)]

theorem lk_ps (store : List (String × Val)) (n : String) (init : Val) (n' : String) :
    lk (ps store n init) n' = if n' = n then some (pv store n init) else lk store n' := by
  unfold ps pv
  cases h : lk store n with
  | some v =>
    split_ifs with hn
    · rw [hn, h]
      rfl
    · rfl
  | none =>
    have h' : store.find? (fun p => p.1 == n) = none := by
      unfold lk at h
      simpa using h
    simp only [lk, List.find?_append, Option.getD_none]
    split_ifs with hn
    · subst hn
      rw [h']
      simp
    · have : (n == n') = false := by simpa using fun h => hn h.symm
      simp [List.find?_cons, this]

theorem pv_ps_ne (store : List (String × Val)) (n : String) (init : Val) (n' : String) (init' : Val) (h : n' ≠ n) :
    pv (ps store n init) n' init' = pv store n' init' := by
  unfold pv
  rw [lk_ps, if_neg h]

/-- A name is new in a trace. -/
def Fresh (t : List Node) (n : String) : Prop := ∀ q ∈ t, q.name ≠ n

theorem Fresh.append {t t' : List Node} {n : String} (h : Fresh t n) (h' : Fresh t' n) : Fresh (t ++ t') n := by
  intro q hq
  rcases List.mem_append.1 hq with hq | hq
  exacts [h q hq, h' q hq]

theorem addNode_fresh (nd : Node) (s : St) (h : Fresh s.trace nd.name) : addNode nd s = .ok { s with trace := s.trace ++ [nd] } := by
  unfold addNode
  have : (s.trace.find? fun q => q.name == nd.name) = none := by
    rw [List.find?_eq_none]
    intro q hq
    simpa using h q hq
  rw [this]

theorem addNode_clash (nd : Node) (s : St) (hk : nd.kind ≠ .param) (h : ¬ Fresh s.trace nd.name) :
    addNode nd s = .error "RuntimeError: multiple sites of the same name" := by
  unfold addNode Fresh at *
  push Not at h
  obtain ⟨q, hq, hn⟩ := h
  cases hf : s.trace.find? (fun q => q.name == nd.name) with
  | none =>
    rw [List.find?_eq_none] at hf
    exact absurd hn (by simpa using hf q hq)
  | some q' => simp [hk]

theorem param_fresh (name : String) (init : Val) (s : St) (h : Fresh s.trace name) :
    param name (some init) s = .ok (pv s.store name init,
      ⟨s.trace ++ [⟨name, .param, false, pv s.store name init, 0⟩], s.cache, ps s.store name init⟩) := by
  unfold param pv ps lk
  cases hf : s.store.find? (fun p => p.1 == name) with
  | some p =>
    simp only [Option.map_some, Option.getD_some]
    rw [addNode_fresh _ _ h]
  | none =>
    simp only [Option.map_none, Option.getD_none]
    rw [addNode_fresh _ _ h]

theorem param_read (name : String) (s : St) (v : Val) (h : Fresh s.trace name) (hv : lk s.store name = some v) :
    param name none s = .ok (v, ⟨s.trace ++ [⟨name, .param, false, v, 0⟩], s.cache, s.store⟩) := by
  unfold param
  unfold lk at hv
  cases hf : s.store.find? (fun p => p.1 == name) with
  | none => simp [hf] at hv
  | some p =>
    obtain rfl : p.2 = v := by simpa [hf] using hv
    simp only
    rw [addNode_fresh _ _ h]

theorem sample_delta (e : Env) (name : String) (v : Val) (s : St) (hb : v.batch = e.plate) (hr : e.replay = []) (h : Fresh s.trace name) :
    sample e name (.delta v) s = .ok (v, { s with trace := s.trace ++ [⟨name, .sample, false, v, 0⟩] }) := by
  unfold sample
  have h1 : ¬ ¬ (Dist.delta v).Valid := by simp [Dist.Valid]
  rw [if_neg h1]
  simp only [Dist.batch, hb]
  have h2 : e.plate.or e.plate = e.plate := by
    cases e.plate <;> rfl
  rw [h2, if_neg (by
    rintro ⟨n, m, h3, h4, -, h5⟩
    rw [h3] at h4
    exact h5 (Option.some.inj h4).symm), hr]
  simp only [List.find?_nil, hb, if_true, ne_eq, not_true_eq_false, Dist.k, or_self, if_false, Dist.Supports, Dist.logProb, Finset.sum_const_zero, mul_zero]
  rw [addNode_fresh _ _ h]

/-- Replaying a value of the right shape. -/
theorem sample_replay (e : Env) (name : String) (d : Dist) (s : St) (q : Node) (hd : d.Valid)
    (hdb : d.batch = some none ∨ d.batch = some e.plate)
    (hq : (e.replay.find? fun q => q.name == name) = some q) (hk : q.kind = .sample) (ho : q.observed = false) (hb : q.value.batch = e.plate)
    (hvk : q.value.k = d.k) (hs : d.Supports (e.plate.getD 1) q.value) (h : Fresh s.trace name) :
    sample e name d s = .ok (q.value, { s with trace := s.trace ++ [⟨name, .sample, false, q.value,
      ∑ b ∈ Finset.range (e.plate.getD 1), e.scale b * ∑ i ∈ Finset.range d.k, d.logProb q.value b i⟩] }) := by
  unfold sample
  rw [if_neg (not_not.2 hd)]
  obtain ⟨db, hdb1, hdb2⟩ : ∃ db, d.batch = some db ∧ (db = none ∨ db = e.plate) := by
    rcases hdb with h | h
    exacts [⟨_, h, .inl rfl⟩, ⟨_, h, .inr rfl⟩]
  rw [hdb1]
  simp only
  have h2 : e.plate.or db = e.plate := by
    rcases hdb2 with rfl | rfl <;> cases e.plate <;> rfl
  rw [h2, if_neg (by
    rintro ⟨n, m, h3, h4, -, h5⟩
    rcases hdb2 with rfl | rfl
    · exact absurd h4 (by simp)
    · rw [h3] at h4
      exact h5 (Option.some.inj h4).symm), hq]
  simp only [hk, ho, and_self, if_true]
  rw [if_neg (by simp [hb, hvk]), if_neg (not_not.2 hs), addNode_fresh _ _ h]

/-! ### Names -/

/-- No two names clash. -/
structure Clean (c : Config) : Prop where
  len : c.names.length = c.priors.length
  nodup : c.names.Nodup
  inj : ∀ v ∈ c.names, ∀ v' ∈ c.names, ∀ a a', nm c v a = nm c v' a' → v = v' ∧ a = a'
  var : ∀ v ∈ c.names, ∀ a, nm c v a ≠ "eps" ∧ nm c v a ≠ "eps" ++ c.paramSuffix ∧ nm c v a ≠ "trials" ∧ nm c v a ≠ "time" ∧ nm c v a ≠ "obs"
  eps : "eps" ++ c.paramSuffix ≠ "eps" ∧ "eps" ++ c.paramSuffix ≠ "trials" ∧ "eps" ++ c.paramSuffix ≠ "time" ∧ "eps" ++ c.paramSuffix ≠ "obs"

theorem Clean.map_fst {c : Config} (h : Clean c) : (vars c).map Prod.fst = c.names := by
  rw [List.map_fst_zip h.len.le]

theorem Clean.mem {c : Config} (h : Clean c) {p : String × Prior} (hp : p ∈ vars c) : p.1 ∈ c.names := by
  rw [← h.map_fst]
  exact List.mem_map_of_mem hp

/-! ### The guide -/

/-- The nodes of the guide for one variable, first part. -/
def gTop (c : Config) (θ : Theta) (p : String × Prior) : List Node :=
  [⟨nm c p.1 .locP, .param, false, Val.const p.2.k (θ.loc p.1), 0⟩, ⟨nm c p.1 .scaleP, .param, false, Val.const p.2.k (θ.scale p.1), 0⟩,
   ⟨nm c p.1 .loc, .sample, false, Val.const p.2.k (θ.loc p.1), 0⟩, ⟨nm c p.1 .scale, .sample, false, Val.const p.2.k (θ.scale p.1), 0⟩]

/-- The nodes of the guide for one variable, second part. -/
def gBot (c : Config) (nb : ℕ) (θ : Theta) (p : String × Prior) : List Node :=
  [⟨nm c p.1 .botP, .param, false, ⟨some nb, p.2.k, θ.test p.1⟩, 0⟩, ⟨nm c p.1 .bot, .sample, false, ⟨some nb, p.2.k, θ.test p.1⟩, 0⟩]

/-- The nodes of the guide for the noise. -/
def gEps (c : Config) (θ : Theta) : List Node :=
  if c.includeNoise then
    [⟨"eps" ++ c.paramSuffix, .param, false, Val.const (noiseVal c.noise).k θ.eps, 0⟩, ⟨"eps", .sample, false, Val.const (noiseVal c.noise).k θ.eps, 0⟩]
  else []

theorem guideTop_fold (c : Config) (θ : Theta) (e : Env) (hp : e.plate = none) (hr : e.replay = []) :
    ∀ (l : List (String × Prior)) (s : St), (l.map Prod.fst).Nodup →
      (∀ p ∈ l, ∀ p' ∈ l, ∀ a a', nm c p.1 a = nm c p'.1 a' → p.1 = p'.1 ∧ a = a') →
      (∀ p ∈ l, Fresh s.trace (nm c p.1 .locP) ∧ Fresh s.trace (nm c p.1 .scaleP) ∧ Fresh s.trace (nm c p.1 .loc) ∧ Fresh s.trace (nm c p.1 .scale)) →
      (∀ p ∈ l, pv s.store (nm c p.1 .locP) (Val.const p.2.k p.2.locLoc) = Val.const p.2.k (θ.loc p.1) ∧
        pv s.store (nm c p.1 .scaleP) (Val.const p.2.k p.2.scaleScale) = Val.const p.2.k (θ.scale p.1)) →
      ∃ st', l.foldl (guideTop c e) (.ok s) = .ok ⟨s.trace ++ l.flatMap (gTop c θ), s.cache, st'⟩ ∧
        (∀ p ∈ l, lk st' (nm c p.1 .locP) = some (Val.const p.2.k (θ.loc p.1)) ∧ lk st' (nm c p.1 .scaleP) = some (Val.const p.2.k (θ.scale p.1))) ∧
        ∀ n, (∀ p ∈ l, n ≠ nm c p.1 .locP ∧ n ≠ nm c p.1 .scaleP) → lk st' n = lk s.store n := by
  intro l
  induction l with
  | nil =>
    intro s _ _ _ _
    exact ⟨s.store, by simp, by simp, fun n _ => rfl⟩
  | cons p l ih =>
    intro s hnd hinj hfr hval
    have hm : p ∈ p :: l := List.mem_cons_self ..
    have hd : ∀ a a', a ≠ a' → nm c p.1 a ≠ nm c p.1 a' := fun a a' h h' => h (hinj p hm p hm a a' h').2
    have hne : ∀ p' ∈ l, p'.1 ≠ p.1 := by
      intro p' hp' h
      rw [List.map_cons, List.nodup_cons] at hnd
      exact hnd.1 (h ▸ List.mem_map_of_mem hp')
    have hx : ∀ p' ∈ l, ∀ a a', nm c p'.1 a ≠ nm c p.1 a' := fun p' hp' a a' h =>
      hne p' hp' (hinj p' (List.mem_cons_of_mem _ hp') p hm a a' h).1
    obtain ⟨f1, f2, f3, f4⟩ := hfr p hm
    obtain ⟨v1, v2⟩ := hval p hm
    have step : guideTop c e (.ok s) p = .ok ⟨s.trace ++ gTop c θ p, s.cache,
        ps (ps s.store (nm c p.1 .locP) (Val.const p.2.k p.2.locLoc)) (nm c p.1 .scaleP) (Val.const p.2.k p.2.scaleScale)⟩ := by
      have v2' : pv (ps s.store (nm c p.1 .locP) (Val.const p.2.k p.2.locLoc)) (nm c p.1 .scaleP) (Val.const p.2.k p.2.scaleScale) =
          Val.const p.2.k (θ.scale p.1) := by
        rw [pv_ps_ne _ _ _ _ _ (hd .scaleP .locP (by simp)), v2]
      have single : ∀ (nd : Node) (n : String), nd.name ≠ n → Fresh [nd] n := by
        intro nd n h q hq
        rw [List.mem_singleton.1 hq]
        exact h
      unfold guideTop
      simp only
      rw [show p.1 ++ c.locSuffix ++ c.paramSuffix = nm c p.1 .locP from rfl, show p.1 ++ c.scaleSuffix ++ c.paramSuffix = nm c p.1 .scaleP from rfl,
        show p.1 ++ c.locSuffix = nm c p.1 .loc from rfl, show p.1 ++ c.scaleSuffix = nm c p.1 .scale from rfl]
      rw [param_fresh _ _ _ f1]
      simp only [v1]
      rw [param_fresh _ _ _ (f2.append (single _ _ (hd .locP .scaleP (by simp))))]
      simp only [v2']
      rw [sample_delta e _ _ _ (by rw [hp]; rfl) hr ((f3.append (single _ _ (hd .locP .loc (by simp)))).append (single _ _ (hd .scaleP .loc (by simp))))]
      simp only
      rw [sample_delta e _ _ _ (by rw [hp]; rfl) hr (((f4.append (single _ _ (hd .locP .scale (by simp)))).append (single _ _ (hd .scaleP .scale (by simp)))).append
        (single _ _ (hd .loc .scale (by simp))))]
      simp only [gTop, List.append_assoc, List.cons_append, List.nil_append]
    have hst : ∀ n, lk (ps (ps s.store (nm c p.1 .locP) (Val.const p.2.k p.2.locLoc)) (nm c p.1 .scaleP) (Val.const p.2.k p.2.scaleScale)) n =
        if n = nm c p.1 .scaleP then some (Val.const p.2.k (θ.scale p.1)) else
          if n = nm c p.1 .locP then some (Val.const p.2.k (θ.loc p.1)) else lk s.store n := by
      intro n
      rw [lk_ps, pv_ps_ne _ _ _ _ _ (hd .scaleP .locP (by simp)), v2, lk_ps, v1]
    have hst' : ∀ p' ∈ l, ∀ a init, pv (ps (ps s.store (nm c p.1 .locP) (Val.const p.2.k p.2.locLoc)) (nm c p.1 .scaleP) (Val.const p.2.k p.2.scaleScale))
        (nm c p'.1 a) init = pv s.store (nm c p'.1 a) init := by
      intro p' hp' a init
      rw [pv_ps_ne _ _ _ _ _ (hx p' hp' a _), pv_ps_ne _ _ _ _ _ (hx p' hp' a _)]
    have hfresh' : ∀ p' ∈ l, ∀ a, Fresh s.trace (nm c p'.1 a) → Fresh (s.trace ++ gTop c θ p) (nm c p'.1 a) := by
      intro p' hp' a h
      refine h.append ?_
      intro q hq
      simp only [gTop, List.mem_cons, List.not_mem_nil, or_false] at hq
      rcases hq with rfl | rfl | rfl | rfl
      exacts [(hx p' hp' a .locP).symm, (hx p' hp' a .scaleP).symm, (hx p' hp' a .loc).symm, (hx p' hp' a .scale).symm]
    obtain ⟨st', h1, h2, h3⟩ := ih ⟨s.trace ++ gTop c θ p, s.cache, ps (ps s.store (nm c p.1 .locP) (Val.const p.2.k p.2.locLoc))
        (nm c p.1 .scaleP) (Val.const p.2.k p.2.scaleScale)⟩ (by rw [List.map_cons, List.nodup_cons] at hnd; exact hnd.2)
      (fun p hp p' hp' => hinj p (List.mem_cons_of_mem _ hp) p' (List.mem_cons_of_mem _ hp'))
      (fun p' hp' => by
        obtain ⟨g1, g2, g3, g4⟩ := hfr p' (List.mem_cons_of_mem _ hp')
        exact ⟨hfresh' p' hp' _ g1, hfresh' p' hp' _ g2, hfresh' p' hp' _ g3, hfresh' p' hp' _ g4⟩)
      (fun p' hp' => by
        have := hval p' (List.mem_cons_of_mem _ hp')
        exact ⟨(hst' p' hp' _ _).trans this.1, (hst' p' hp' _ _).trans this.2⟩)
    refine ⟨st', ?_, ?_, ?_⟩
    · rw [List.foldl_cons, step, h1, List.flatMap_cons, List.append_assoc]
    · intro p' hp'
      rcases List.mem_cons.1 hp' with rfl | hp'
      · constructor
        · rw [h3 _ (fun p'' hp'' => ⟨(hx p'' hp'' _ _).symm, (hx p'' hp'' _ _).symm⟩)]
          exact (hst _).trans (by rw [if_neg (hd .locP .scaleP (by simp)), if_pos rfl])
        · rw [h3 _ (fun p'' hp'' => ⟨(hx p'' hp'' _ _).symm, (hx p'' hp'' _ _).symm⟩)]
          exact (hst _).trans (by rw [if_pos rfl])
      · exact h2 p' hp'
    · intro n hn
      rw [h3 n fun p' hp' => hn p' (List.mem_cons_of_mem _ hp')]
      exact (hst _).trans (by rw [if_neg (hn p hm).2, if_neg (hn p hm).1])

theorem fresh_single {nd : Node} {n : String} (h : nd.name ≠ n) : Fresh [nd] n := by
  intro q hq
  rw [List.mem_singleton.1 hq]
  exact h

theorem guideBot_fold (c : Config) (θ : Theta) (e : Env) (nb : ℕ) (hp : e.plate = some nb) (hr : e.replay = []) :
    ∀ (l : List (String × Prior)) (s : St), (l.map Prod.fst).Nodup →
      (∀ p ∈ l, ∀ p' ∈ l, ∀ a a', nm c p.1 a = nm c p'.1 a' → p.1 = p'.1 ∧ a = a') →
      (∀ p ∈ l, Fresh s.trace (nm c p.1 .botP) ∧ Fresh s.trace (nm c p.1 .bot)) →
      (∀ p ∈ l, pv s.store (nm c p.1 .botP) ⟨some nb, p.2.k, fun _ i => p.2.locLoc i⟩ = ⟨some nb, p.2.k, θ.test p.1⟩) →
      ∃ st', l.foldl (guideBot c e nb) (.ok s) = .ok ⟨s.trace ++ l.flatMap (gBot c nb θ), s.cache, st'⟩ ∧
        (∀ p ∈ l, lk st' (nm c p.1 .botP) = some ⟨some nb, p.2.k, θ.test p.1⟩) ∧
        ∀ n, (∀ p ∈ l, n ≠ nm c p.1 .botP) → lk st' n = lk s.store n := by
  intro l
  induction l with
  | nil =>
    intro s _ _ _ _
    exact ⟨s.store, by simp, by simp, fun n _ => rfl⟩
  | cons p l ih =>
    intro s hnd hinj hfr hval
    have hm : p ∈ p :: l := List.mem_cons_self ..
    have hd : ∀ a a', a ≠ a' → nm c p.1 a ≠ nm c p.1 a' := fun a a' h h' => h (hinj p hm p hm a a' h').2
    have hne : ∀ p' ∈ l, p'.1 ≠ p.1 := by
      intro p' hp' h
      rw [List.map_cons, List.nodup_cons] at hnd
      exact hnd.1 (h ▸ List.mem_map_of_mem hp')
    have hx : ∀ p' ∈ l, ∀ a a', nm c p'.1 a ≠ nm c p.1 a' := fun p' hp' a a' h =>
      hne p' hp' (hinj p' (List.mem_cons_of_mem _ hp') p hm a a' h).1
    obtain ⟨f1, f2⟩ := hfr p hm
    have v1 := hval p hm
    have step : guideBot c e nb (.ok s) p = .ok ⟨s.trace ++ gBot c nb θ p, s.cache, ps s.store (nm c p.1 .botP) ⟨some nb, p.2.k, fun _ i => p.2.locLoc i⟩⟩ := by
      unfold guideBot
      simp only
      rw [show p.1 ++ c.paramSuffix = nm c p.1 .botP from rfl, show sample e p.1 = sample e (nm c p.1 .bot) from rfl]
      rw [param_fresh _ _ _ f1]
      simp only [v1]
      rw [sample_delta e _ _ _ (by rw [hp]) hr (f2.append (fresh_single (hd .botP .bot (by simp))))]
      simp only [gBot, List.append_assoc, List.cons_append, List.nil_append]
    have hst : ∀ n, lk (ps s.store (nm c p.1 .botP) ⟨some nb, p.2.k, fun _ i => p.2.locLoc i⟩) n =
        if n = nm c p.1 .botP then some ⟨some nb, p.2.k, θ.test p.1⟩ else lk s.store n := by
      intro n
      rw [lk_ps, v1]
    have hfresh' : ∀ p' ∈ l, ∀ a, Fresh s.trace (nm c p'.1 a) → Fresh (s.trace ++ gBot c nb θ p) (nm c p'.1 a) := by
      intro p' hp' a h
      refine h.append ?_
      intro q hq
      simp only [gBot, List.mem_cons, List.not_mem_nil, or_false] at hq
      rcases hq with rfl | rfl
      exacts [(hx p' hp' a .botP).symm, (hx p' hp' a .bot).symm]
    obtain ⟨st', h1, h2, h3⟩ := ih ⟨s.trace ++ gBot c nb θ p, s.cache, ps s.store (nm c p.1 .botP) ⟨some nb, p.2.k, fun _ i => p.2.locLoc i⟩⟩
      (by rw [List.map_cons, List.nodup_cons] at hnd; exact hnd.2)
      (fun p hp p' hp' => hinj p (List.mem_cons_of_mem _ hp) p' (List.mem_cons_of_mem _ hp'))
      (fun p' hp' => by
        obtain ⟨g1, g2⟩ := hfr p' (List.mem_cons_of_mem _ hp')
        exact ⟨hfresh' p' hp' _ g1, hfresh' p' hp' _ g2⟩)
      (fun p' hp' => by
        have := hval p' (List.mem_cons_of_mem _ hp')
        exact (pv_ps_ne _ _ _ _ _ (hx p' hp' _ _)).trans this)
    refine ⟨st', ?_, ?_, ?_⟩
    · rw [List.foldl_cons, step, h1, List.flatMap_cons, List.append_assoc]
    · intro p' hp'
      rcases List.mem_cons.1 hp' with rfl | hp'
      · rw [h3 _ (fun p'' hp'' => (hx p'' hp'' _ _).symm)]
        exact (hst _).trans (by rw [if_pos rfl])
      · exact h2 p' hp'
    · intro n hn
      rw [h3 n fun p' hp' => hn p' (List.mem_cons_of_mem _ hp')]
      exact (hst _).trans (by rw [if_neg (hn p hm)])

/-- The trace of the guide. -/
def guideTrace (c : Config) (nb : ℕ) (θ : Theta) : List Node :=
  (vars c).flatMap (gTop c θ) ++ gEps c θ ++ [⟨"trials", .plate, false, Val.const 0 0, 0⟩] ++ (vars c).flatMap (gBot c nb θ)

theorem gTop_name {c : Config} {θ : Theta} {p : String × Prior} {q : Node} (h : q ∈ gTop c θ p) :
    ∃ a, (a ≠ .bot ∧ a ≠ .botP) ∧ q.name = nm c p.1 a := by
  simp only [gTop, List.mem_cons, List.not_mem_nil, or_false] at h
  rcases h with rfl | rfl | rfl | rfl
  exacts [⟨.locP, by simp, rfl⟩, ⟨.scaleP, by simp, rfl⟩, ⟨.loc, by simp, rfl⟩, ⟨.scale, by simp, rfl⟩]

theorem guide_run (c : Config) (hc : Clean c) (nb : ℕ) (draw : String → ℕ → ℕ → ℝ) (store : List (String × Val)) (θ : Theta)
    (h : Represents c nb store θ) :
    ∃ st', guide c nb draw store = .ok ⟨guideTrace c nb θ, [], st'⟩ ∧ Stored c nb st' θ ∧
      ∀ n, (∀ v ∈ c.names, ∀ a, n ≠ nm c v a) → n ≠ "eps" ++ c.paramSuffix → lk st' n = lk store n := by
  have hnd : ((vars c).map Prod.fst).Nodup := by rw [hc.map_fst]; exact hc.nodup
  have hinj : ∀ p ∈ vars c, ∀ p' ∈ vars c, ∀ a a', nm c p.1 a = nm c p'.1 a' → p.1 = p'.1 ∧ a = a' :=
    fun p hp p' hp' => hc.inj p.1 (hc.mem hp) p'.1 (hc.mem hp')
  obtain ⟨s1, e1, t1, o1⟩ := guideTop_fold c θ ⟨none, fun _ => 1, [], draw⟩ rfl rfl (vars c) ⟨[], [], store⟩ hnd hinj
    (fun p _ => by simp [Fresh]) h.top
  have ftop : ∀ p ∈ vars c, ∀ a, (a = .bot ∨ a = .botP) → Fresh ((vars c).flatMap (gTop c θ)) (nm c p.1 a) := by
    intro p hp a ha q hq
    obtain ⟨p', hp', hq⟩ := List.mem_flatMap.1 hq
    obtain ⟨a', h1, h2⟩ := gTop_name hq
    rw [h2]
    intro hn
    have := (hinj p' hp' p hp _ _ hn).2
    subst this
    rcases ha with ha | ha
    exacts [h1.1 ha, h1.2 ha]
  have ftop' : ∀ n, (∀ v ∈ c.names, ∀ a, nm c v a ≠ n) → Fresh ((vars c).flatMap (gTop c θ)) n := by
    intro n hn q hq
    obtain ⟨p', hp', hq⟩ := List.mem_flatMap.1 hq
    obtain ⟨a', h1, h2⟩ := gTop_name hq
    rw [h2]
    exact hn _ (hc.mem hp') _
  obtain ⟨s2, e2, t2, o2⟩ : ∃ s2, guideNoise c ⟨none, fun _ => 1, [], draw⟩ ⟨(vars c).flatMap (gTop c θ), [], s1⟩ =
      .ok ⟨(vars c).flatMap (gTop c θ) ++ gEps c θ, [], s2⟩ ∧
      (c.includeNoise = true → lk s2 ("eps" ++ c.paramSuffix) = some (Val.const (noiseVal c.noise).k θ.eps)) ∧
      ∀ n, n ≠ "eps" ++ c.paramSuffix → lk s2 n = lk s1 n := by
    by_cases hi : c.includeNoise = true
    · refine ⟨ps s1 ("eps" ++ c.paramSuffix) (noiseVal c.noise), ?_, ?_, ?_⟩
      · have hv : pv s1 ("eps" ++ c.paramSuffix) (noiseVal c.noise) = Val.const (noiseVal c.noise).k θ.eps := by
          rw [← h.eps hi]
          unfold pv
          rw [o1 _ fun p hp => ⟨((hc.var _ (hc.mem hp) .locP).2.1).symm, ((hc.var _ (hc.mem hp) .scaleP).2.1).symm⟩]
        unfold guideNoise
        rw [if_pos hi, param_fresh _ _ _ (ftop' _ fun v hv a => (hc.var v hv a).2.1)]
        simp only [hv]
        rw [sample_delta _ _ _ _ rfl rfl ((ftop' _ fun v hv a => (hc.var v hv a).1).append (fresh_single hc.eps.1))]
        simp only [gEps, hi, if_true, List.append_assoc, List.cons_append, List.nil_append]
      · intro _
        rw [lk_ps, if_pos rfl, ← h.eps hi]
        unfold pv
        rw [o1 _ fun p hp => ⟨((hc.var _ (hc.mem hp) .locP).2.1).symm, ((hc.var _ (hc.mem hp) .scaleP).2.1).symm⟩]
      · intro n hn
        rw [lk_ps, if_neg hn]
    · refine ⟨s1, ?_, fun h => absurd h hi, fun _ _ => rfl⟩
      unfold guideNoise
      rw [if_neg hi]
      simp only [gEps, if_neg hi, List.append_nil]
  have feps : ∀ n, n ≠ "eps" → n ≠ "eps" ++ c.paramSuffix → Fresh (gEps c θ) n := by
    intro n h1 h2 q hq
    unfold gEps at hq
    split_ifs at hq with hi
    · simp only [List.mem_cons, List.not_mem_nil, or_false] at hq
      rcases hq with rfl | rfl
      exacts [h2.symm, h1.symm]
    · simp at hq
  have eplate : plate "trials" ⟨(vars c).flatMap (gTop c θ) ++ gEps c θ, [], s2⟩ =
      .ok ⟨(vars c).flatMap (gTop c θ) ++ gEps c θ ++ [⟨"trials", .plate, false, Val.const 0 0, 0⟩], [], s2⟩ := by
    unfold plate
    rw [addNode_fresh _ _ ((ftop' _ fun v hv a => (hc.var v hv a).2.2.1).append (feps _ (by decide) hc.eps.2.1.symm))]
  have hlk : ∀ p ∈ vars c, ∀ a, (a = .bot ∨ a = .botP) → lk s2 (nm c p.1 a) = lk store (nm c p.1 a) := by
    intro p hp a ha
    rw [o2 _ (hc.var _ (hc.mem hp) a).2.1, o1]
    intro p' hp'
    constructor <;> intro hn <;> have := (hinj p hp p' hp' _ _ hn).2 <;> subst this <;> simp at ha
  obtain ⟨s3, e3, t3, o3⟩ := guideBot_fold c θ ⟨some nb, fun _ => 1, [], draw⟩ nb rfl rfl (vars c)
    ⟨(vars c).flatMap (gTop c θ) ++ gEps c θ ++ [⟨"trials", .plate, false, Val.const 0 0, 0⟩], [], s2⟩ hnd hinj
    (fun p hp => by
      have key : ∀ a, (a = .bot ∨ a = .botP) →
          Fresh ((vars c).flatMap (gTop c θ) ++ gEps c θ ++ [⟨"trials", .plate, false, Val.const 0 0, 0⟩]) (nm c p.1 a) := fun a ha =>
        ((ftop p hp a ha).append (feps _ (hc.var _ (hc.mem hp) a).1 (hc.var _ (hc.mem hp) a).2.1)).append
          (fresh_single (hc.var _ (hc.mem hp) a).2.2.1.symm)
      exact ⟨key _ (.inr rfl), key _ (.inl rfl)⟩)
    (fun p hp => by
      rw [← h.test p hp]
      unfold pv
      exact congrArg (Option.getD · _) (hlk p hp _ (.inr rfl)))
  refine ⟨s3, ?_, ⟨fun p hp => ?_, t3, fun hi => ?_⟩, fun n hn hn' => ?_⟩
  · unfold guide
    simp only
    rw [e1]
    simp only [List.nil_append]
    rw [e2]
    simp only
    rw [eplate]
    simp only
    rw [e3]
    rfl
  · have hb : ∀ a, a ≠ .botP → ∀ p' ∈ vars c, nm c p.1 a ≠ nm c p'.1 .botP := fun a ha p' hp' hn => ha (hinj p hp p' hp' _ _ hn).2
    constructor
    · rw [o3 _ (hb _ (by simp))]
      exact (o2 _ (hc.var _ (hc.mem hp) _).2.1).trans (t1 p hp).1
    · rw [o3 _ (hb _ (by simp))]
      exact (o2 _ (hc.var _ (hc.mem hp) _).2.1).trans (t1 p hp).2
  · rw [o3 _ fun p hp => (hc.var _ (hc.mem hp) _).2.1.symm]
    exact t2 hi
  · rw [o3 _ fun p hp => hn _ (hc.mem hp) _]
    exact (o2 _ hn').trans (o1 _ fun p hp => ⟨hn _ (hc.mem hp) _, hn _ (hc.mem hp) _⟩)

/-! ### The model -/

theorem find_unique {α : Type} (l : List α) (key : α → String) (x : α) (hx : x ∈ l) (hu : ∀ y ∈ l, key y = key x → y = x) :
    (l.find? fun y => key y == key x) = some x := by
  cases h : l.find? fun y => key y == key x with
  | none =>
    rw [List.find?_eq_none] at h
    exact absurd (h x hx) (by simp)
  | some y => rw [hu y (List.mem_of_find?_eq_some h) (by simpa using List.find?_some h)]

theorem getattr_unique {α : Type} (l : List (String × α)) (n : String) (a : α) (hx : (n, a) ∈ l) (hu : ∀ y ∈ l, y.1 = n → y = (n, a)) :
    getattr l n = .ok a := by
  unfold getattr
  rw [find_unique l.reverse Prod.fst (n, a) (List.mem_reverse.2 hx) fun y hy h => hu y (List.mem_reverse.1 hy) h]

theorem find_none {α : Type} (l : List α) (key : α → String) (n : String) (hu : ∀ y ∈ l, key y ≠ n) : (l.find? fun y => key y == n) = none := by
  rw [List.find?_eq_none]
  intro y hy
  simpa using hu y hy

/-- The distribution of a population mean. -/
def dLoc (p : Prior) : Dist := .normal (Val.const p.k p.locLoc) (Val.const p.k p.locScale)
/-- The distribution of a population standard deviation. -/
def dScale (p : Prior) : Dist := .halfNormal (Val.const p.k p.scaleScale)
/-- The distribution of the values in the tests. -/
def dBot (θ : Theta) (p : String × Prior) : Dist := .normal (Val.const p.2.k (θ.loc p.1)) (Val.const p.2.k (θ.scale p.1))

theorem attr_loc {c : Config} (hc : Clean c) {p : String × Prior} (hp : p ∈ vars c) : getattr (attrs c) (nm c p.1 .loc) = .ok (.prior (dLoc p.2)) ∧
    getattr (attrs c) (nm c p.1 .scale) = .ok (.prior (dScale p.2)) ∧ getattr (attrs c) (nm c p.1 .bot) = .ok (.bottom p.1) := by
  have hpp : ∀ p' ∈ vars c, p'.1 = p.1 → p' = p := by
    have hnd : ((vars c).map Prod.fst).Nodup := by rw [hc.map_fst]; exact hc.nodup
    intro p' hp' h
    exact List.inj_on_of_nodup_map hnd hp' hp h
  have key : ∀ y ∈ attrs c, ∀ a, y.1 = nm c p.1 a → (a = .loc → y.2 = .prior (dLoc p.2)) ∧ (a = .scale → y.2 = .prior (dScale p.2)) ∧
      (a = .bot → y.2 = .bottom p.1) := by
    intro y hy a ha
    unfold attrs at hy
    rcases List.mem_append.1 hy with hy | hy
    · obtain ⟨p', hp', hy⟩ := List.mem_flatMap.1 hy
      simp only [varAttrs, List.mem_cons, List.not_mem_nil, or_false] at hy
      rcases hy with rfl | rfl | rfl
      · obtain ⟨h1, h2⟩ := hc.inj p'.1 (hc.mem hp') p.1 (hc.mem hp) .loc a ha
        obtain rfl := hpp p' hp' h1
        subst h2
        exact ⟨fun _ => rfl, fun h => absurd h (by simp), fun h => absurd h (by simp)⟩
      · obtain ⟨h1, h2⟩ := hc.inj p'.1 (hc.mem hp') p.1 (hc.mem hp) .scale a ha
        obtain rfl := hpp p' hp' h1
        subst h2
        exact ⟨fun h => absurd h (by simp), fun _ => rfl, fun h => absurd h (by simp)⟩
      · obtain ⟨h1, h2⟩ := hc.inj p'.1 (hc.mem hp') p.1 (hc.mem hp) .bot a ha
        obtain rfl := hpp p' hp' h1
        subst h2
        exact ⟨fun h => absurd h (by simp), fun h => absurd h (by simp), fun _ => rfl⟩
    · rw [List.mem_singleton.1 hy] at ha
      exact absurd ha.symm (hc.var _ (hc.mem hp) a).1
  have hmem : ∀ x ∈ varAttrs c p, x ∈ attrs c := fun x hx => List.mem_append_left _ (List.mem_flatMap.2 ⟨p, hp, hx⟩)
  refine ⟨getattr_unique _ _ _ (hmem _ ?_) fun y hy h => Prod.ext h ((key y hy _ h).1 rfl),
    getattr_unique _ _ _ (hmem _ ?_) fun y hy h => Prod.ext h ((key y hy _ h).2.1 rfl),
    getattr_unique _ _ _ (hmem _ ?_) fun y hy h => Prod.ext h ((key y hy _ h).2.2 rfl)⟩
  · exact List.mem_cons_self ..
  · exact List.mem_cons_of_mem _ (List.mem_cons_self ..)
  · exact List.mem_cons_of_mem _ (List.mem_cons_of_mem _ (List.mem_cons_self ..))

theorem attr_eps (c : Config) : getattr (attrs c) "eps" =
    .ok (if c.includeNoise then .prior (.halfNormal (noiseVal c.noise)) else .plain (noiseVal c.noise)) := by
  unfold getattr attrs
  simp

/-- A node replayed by the model. -/
noncomputable def mNode (plate : Option ℕ) (scale : ℕ → ℝ) (name : String) (d : Dist) (v : Val) : Node :=
  ⟨name, .sample, false, v, ∑ b ∈ Finset.range (plate.getD 1), scale b * ∑ i ∈ Finset.range d.k, d.logProb v b i⟩

theorem get_prior (c : Config) (e : Env) (fuel : ℕ) (name : String) (d : Dist) (s : St) (q : Node) (ha : getattr (attrs c) name = .ok (.prior d))
    (hcache : ∀ x ∈ s.cache, x.1 ≠ name) (hd : d.Valid) (hdb : d.batch = some none ∨ d.batch = some e.plate)
    (hq : (e.replay.find? fun q => q.name == name) = some q) (hk : q.kind = .sample) (ho : q.observed = false) (hb : q.value.batch = e.plate)
    (hvk : q.value.k = d.k) (hs : d.Supports (e.plate.getD 1) q.value) (h : Fresh s.trace name) :
    get c e (fuel + 1) name s = .ok (q.value, ⟨s.trace ++ [mNode e.plate e.scale name d q.value], s.cache ++ [(name, q.value)], s.store⟩) := by
  unfold get
  rw [ha]
  simp only
  rw [find_none s.cache Prod.fst name hcache]
  simp only
  rw [sample_replay e name d s q hd hdb hq hk ho hb hvk hs h]
  rfl

theorem get_cached (c : Config) (e : Env) (fuel : ℕ) (name : String) (d : Dist) (s : St) (v : Val) (ha : getattr (attrs c) name = .ok (.prior d))
    (hv : (s.cache.find? fun p => p.1 == name) = some (name, v)) : get c e (fuel + 1) name s = .ok (v, s) := by
  unfold get
  rw [ha]
  simp only
  rw [hv]

/-- The model's nodes for the population of one variable. -/
noncomputable def mTop (c : Config) (θ : Theta) (p : String × Prior) : List Node :=
  [mNode none (fun _ => 1) (nm c p.1 .loc) (dLoc p.2) (Val.const p.2.k (θ.loc p.1)),
   mNode none (fun _ => 1) (nm c p.1 .scale) (dScale p.2) (Val.const p.2.k (θ.scale p.1))]

/-- The values cached for the population of one variable. -/
def cTop (c : Config) (θ : Theta) (p : String × Prior) : List (String × Val) :=
  [(nm c p.1 .loc, Val.const p.2.k (θ.loc p.1)), (nm c p.1 .scale, Val.const p.2.k (θ.scale p.1))]

theorem getAll_append (c : Config) (e : Env) (fuel : ℕ) (l l' : List String) (s s' : St) (v : List Val) (h : getAll c e fuel l s = .ok (v, s')) :
    getAll c e fuel (l ++ l') s = match getAll c e fuel l' s' with
      | .error err => .error err
      | .ok (v', s'') => .ok (v ++ v', s'') := by
  induction l generalizing s v with
  | nil =>
    simp only [getAll, Except.ok.injEq, Prod.mk.injEq] at h
    obtain ⟨rfl, rfl⟩ := h
    simp only [List.nil_append]
    cases getAll c e fuel l' s <;> rfl
  | cons n l ih =>
    simp only [getAll, List.cons_append] at h ⊢
    cases hg : get c e fuel n s with
    | error err => simp [hg] at h
    | ok r =>
      obtain ⟨w, t⟩ := r
      rw [hg] at h
      simp only at h ⊢
      cases hr : getAll c e fuel l t with
      | error err => simp [hr] at h
      | ok r =>
        obtain ⟨ws, t'⟩ := r
        rw [hr] at h
        simp only [Except.ok.injEq, Prod.mk.injEq] at h
        obtain ⟨rfl, rfl⟩ := h
        rw [ih t ws hr]
        cases getAll c e fuel l' t' <;> rfl

theorem guideTrace_find {c : Config} (hc : Clean c) (nb : ℕ) (θ : Theta) {p : String × Prior} (hp : p ∈ vars c) :
    ((guideTrace c nb θ).find? fun q => q.name == nm c p.1 .loc) = some ⟨nm c p.1 .loc, .sample, false, Val.const p.2.k (θ.loc p.1), 0⟩ ∧
    ((guideTrace c nb θ).find? fun q => q.name == nm c p.1 .scale) = some ⟨nm c p.1 .scale, .sample, false, Val.const p.2.k (θ.scale p.1), 0⟩ ∧
    ((guideTrace c nb θ).find? fun q => q.name == nm c p.1 .bot) = some ⟨nm c p.1 .bot, .sample, false, ⟨some nb, p.2.k, θ.test p.1⟩, 0⟩ := by
  have hpp : ∀ p' ∈ vars c, p'.1 = p.1 → p' = p := by
    have hnd : ((vars c).map Prod.fst).Nodup := by rw [hc.map_fst]; exact hc.nodup
    intro p' hp' h
    exact List.inj_on_of_nodup_map hnd hp' hp h
  have key : ∀ y ∈ guideTrace c nb θ, ∀ a, y.name = nm c p.1 a →
      (a = .loc → y = ⟨nm c p.1 .loc, .sample, false, Val.const p.2.k (θ.loc p.1), 0⟩) ∧
      (a = .scale → y = ⟨nm c p.1 .scale, .sample, false, Val.const p.2.k (θ.scale p.1), 0⟩) ∧
      (a = .bot → y = ⟨nm c p.1 .bot, .sample, false, ⟨some nb, p.2.k, θ.test p.1⟩, 0⟩) := by
    intro y hy a ha
    have aux : ∀ p' ∈ vars c, ∀ a', nm c p'.1 a' = nm c p.1 a → p' = p ∧ a' = a := by
      intro p' hp' a' h
      obtain ⟨h1, h2⟩ := hc.inj p'.1 (hc.mem hp') p.1 (hc.mem hp) a' a h
      exact ⟨hpp p' hp' h1, h2⟩
    unfold guideTrace at hy
    simp only [List.mem_append, List.mem_flatMap, List.mem_singleton] at hy
    rcases hy with ((⟨p', hp', hy⟩ | hy) | rfl) | ⟨p', hp', hy⟩
    · simp only [gTop, List.mem_cons, List.not_mem_nil, or_false] at hy
      rcases hy with rfl | rfl | rfl | rfl
      · obtain ⟨rfl, rfl⟩ := aux p' hp' .locP ha
        refine ⟨?_, ?_, ?_⟩ <;> intro h <;> exact absurd h (by simp)
      · obtain ⟨rfl, rfl⟩ := aux p' hp' .scaleP ha
        refine ⟨?_, ?_, ?_⟩ <;> intro h <;> exact absurd h (by simp)
      · obtain ⟨rfl, rfl⟩ := aux p' hp' .loc ha
        exact ⟨fun _ => rfl, fun h => absurd h (by simp), fun h => absurd h (by simp)⟩
      · obtain ⟨rfl, rfl⟩ := aux p' hp' .scale ha
        exact ⟨fun h => absurd h (by simp), fun _ => rfl, fun h => absurd h (by simp)⟩
    · unfold gEps at hy
      split_ifs at hy
      · simp only [List.mem_cons, List.not_mem_nil, or_false] at hy
        rcases hy with rfl | rfl
        · exact absurd ha.symm (hc.var _ (hc.mem hp) a).2.1
        · exact absurd ha.symm (hc.var _ (hc.mem hp) a).1
      · simp at hy
    · exact absurd ha.symm (hc.var _ (hc.mem hp) a).2.2.1
    · simp only [gBot, List.mem_cons, List.not_mem_nil, or_false] at hy
      rcases hy with rfl | rfl
      · obtain ⟨rfl, rfl⟩ := aux p' hp' .botP ha
        refine ⟨?_, ?_, ?_⟩ <;> intro h <;> exact absurd h (by simp)
      · obtain ⟨rfl, rfl⟩ := aux p' hp' .bot ha
        exact ⟨fun h => absurd h (by simp), fun h => absurd h (by simp), fun _ => rfl⟩
  have top : ∀ q ∈ gTop c θ p, q ∈ guideTrace c nb θ := fun q hq => by
    unfold guideTrace
    simp only [List.mem_append, List.mem_flatMap]
    exact .inl (.inl (.inl ⟨p, hp, hq⟩))
  have bot : ∀ q ∈ gBot c nb θ p, q ∈ guideTrace c nb θ := fun q hq => by
    unfold guideTrace
    simp only [List.mem_append, List.mem_flatMap]
    exact .inr ⟨p, hp, hq⟩
  refine ⟨find_unique _ Node.name ⟨nm c p.1 .loc, .sample, false, Val.const p.2.k (θ.loc p.1), 0⟩ (top _ (by simp [gTop])) fun y hy h => (key y hy _ h).1 rfl,
    find_unique _ Node.name ⟨nm c p.1 .scale, .sample, false, Val.const p.2.k (θ.scale p.1), 0⟩ (top _ (by simp [gTop])) fun y hy h => (key y hy _ h).2.1 rfl,
    find_unique _ Node.name ⟨nm c p.1 .bot, .sample, false, ⟨some nb, p.2.k, θ.test p.1⟩, 0⟩ (bot _ (by simp [gBot])) fun y hy h => (key y hy _ h).2.2 rfl⟩

theorem guideTrace_eps {c : Config} (hc : Clean c) (nb : ℕ) (θ : Theta) (hi : c.includeNoise = true) :
    ((guideTrace c nb θ).find? fun q => q.name == "eps") = some ⟨"eps", .sample, false, Val.const (noiseVal c.noise).k θ.eps, 0⟩ := by
  refine find_unique _ Node.name ⟨"eps", .sample, false, Val.const (noiseVal c.noise).k θ.eps, 0⟩ ?_ ?_
  · unfold guideTrace gEps
    simp [hi]
  · intro y hy ha
    unfold guideTrace at hy
    simp only [List.mem_append, List.mem_flatMap, List.mem_singleton] at hy
    rcases hy with ((⟨p', hp', hy⟩ | hy) | rfl) | ⟨p', hp', hy⟩
    · obtain ⟨a', -, h2⟩ := gTop_name hy
      exact absurd (h2.symm.trans ha) (hc.var _ (hc.mem hp') a').1
    · unfold gEps at hy
      rw [if_pos hi] at hy
      simp only [List.mem_cons, List.not_mem_nil, or_false] at hy
      rcases hy with rfl | rfl
      · exact absurd ha hc.eps.1
      · rfl
    · exact absurd ha (show ¬ ("trials" : String) = "eps" by decide)
    · simp only [gBot, List.mem_cons, List.not_mem_nil, or_false] at hy
      rcases hy with rfl | rfl
      · exact absurd ha (hc.var _ (hc.mem hp') .botP).1
      · exact absurd ha (hc.var _ (hc.mem hp') .bot).1

theorem getAll_top (c : Config) (hc : Clean c) (hv : PriorsValid c) (θ : Theta) (hθ : ∀ p ∈ vars c, ∀ i < p.2.k, 0 < θ.scale p.1 i) (nb fuel : ℕ)
    (draw : String → ℕ → ℕ → ℝ) :
    ∀ (l : List (String × Prior)) (s : St), (∀ p ∈ l, p ∈ vars c) → (l.map Prod.fst).Nodup →
      (∀ p ∈ l, ∀ a, (a = .loc ∨ a = .scale) → Fresh s.trace (nm c p.1 a) ∧ ∀ x ∈ s.cache, x.1 ≠ nm c p.1 a) →
      getAll c ⟨none, fun _ => 1, guideTrace c nb θ, draw⟩ (fuel + 1) (l.flatMap fun p => [p.1 ++ c.locSuffix, p.1 ++ c.scaleSuffix]) s =
        .ok (l.flatMap fun p => [Val.const p.2.k (θ.loc p.1), Val.const p.2.k (θ.scale p.1)],
          ⟨s.trace ++ l.flatMap (mTop c θ), s.cache ++ l.flatMap (cTop c θ), s.store⟩) := by
  intro l
  induction l with
  | nil =>
    intro s _ _ _
    simp [getAll]
  | cons p l ih =>
    intro s hsub hnd hfr
    have hp := hsub p (List.mem_cons_self ..)
    have hne : ∀ p' ∈ l, p'.1 ≠ p.1 := by
      intro p' hp' h
      rw [List.map_cons, List.nodup_cons] at hnd
      exact hnd.1 (h ▸ List.mem_map_of_mem hp')
    have hx : ∀ p' ∈ l, ∀ a a', nm c p.1 a' ≠ nm c p'.1 a := fun p' hp' a a' h =>
      hne p' hp' (hc.inj p.1 (hc.mem hp) p'.1 (hc.mem (hsub p' (List.mem_cons_of_mem _ hp'))) a' a h).1.symm
    have hls : nm c p.1 .loc ≠ nm c p.1 .scale := fun h => absurd (hc.inj p.1 (hc.mem hp) p.1 (hc.mem hp) _ _ h).2 (by simp)
    obtain ⟨f1, f2, -⟩ := guideTrace_find hc nb θ hp
    obtain ⟨a1, a2, -⟩ := attr_loc hc hp
    have g1 := hfr p (List.mem_cons_self ..) .loc (.inl rfl)
    have g2 := hfr p (List.mem_cons_self ..) .scale (.inr rfl)
    have step : getAll c ⟨none, fun _ => 1, guideTrace c nb θ, draw⟩ (fuel + 1) [p.1 ++ c.locSuffix, p.1 ++ c.scaleSuffix] s =
        .ok ([Val.const p.2.k (θ.loc p.1), Val.const p.2.k (θ.scale p.1)], ⟨s.trace ++ mTop c θ p, s.cache ++ cTop c θ p, s.store⟩) := by
      rw [show p.1 ++ c.locSuffix = nm c p.1 .loc from rfl, show p.1 ++ c.scaleSuffix = nm c p.1 .scale from rfl]
      unfold getAll
      rw [get_prior c ⟨none, fun _ => 1, guideTrace c nb θ, draw⟩ fuel _ (dLoc p.2) s _ a1 g1.2 (hv.1 p hp).1 (.inl rfl) f1 rfl rfl rfl rfl trivial g1.1]
      simp only
      unfold getAll
      rw [get_prior c ⟨none, fun _ => 1, guideTrace c nb θ, draw⟩ fuel _ (dScale p.2) _ _ a2 (by
          intro x hx'
          rcases List.mem_append.1 hx' with hx' | hx'
          · exact g2.2 x hx'
          · rw [List.mem_singleton.1 hx']
            exact hls) (hv.1 p hp).2 (.inl rfl) f2 rfl rfl rfl rfl (fun b _ i hi => (hθ p hp i hi).le) (g2.1.append (fresh_single hls))]
      simp only [getAll, mTop, cTop, List.append_assoc, List.cons_append, List.nil_append]
    rw [List.flatMap_cons, getAll_append c _ _ _ _ _ _ _ step, ih _ (fun p' hp' => hsub p' (List.mem_cons_of_mem _ hp'))
      (by rw [List.map_cons, List.nodup_cons] at hnd; exact hnd.2) ?_]
    · simp only [List.flatMap_cons, List.append_assoc]
    · intro p' hp' a ha
      obtain ⟨h1, h2⟩ := hfr p' (List.mem_cons_of_mem _ hp') a ha
      refine ⟨h1.append ?_, ?_⟩
      · intro q hq
        simp only [mTop, List.mem_cons, List.not_mem_nil, or_false] at hq
        rcases hq with rfl | rfl
        exacts [hx p' hp' a .loc, hx p' hp' a .scale]
      · intro x hx'
        rcases List.mem_append.1 hx' with hx' | hx'
        · exact h2 x hx'
        · simp only [cTop, List.mem_cons, List.not_mem_nil, or_false] at hx'
          rcases hx' with rfl | rfl
          exacts [hx p' hp' a .loc, hx p' hp' a .scale]

/-- The model's node for the values of one variable in the tests. -/
noncomputable def mBot (c : Config) (nb : ℕ) (w : ℕ → ℝ) (θ : Theta) (p : String × Prior) : Node :=
  mNode (some nb) w (nm c p.1 .bot) (dBot θ p) ⟨some nb, p.2.k, θ.test p.1⟩

theorem getAll_bot (c : Config) (hc : Clean c) (θ : Theta) (hθ : ∀ p ∈ vars c, ∀ i < p.2.k, 0 < θ.scale p.1 i) (nb fuel : ℕ) (w : ℕ → ℝ)
    (draw : String → ℕ → ℕ → ℝ) :
    ∀ (l : List (String × Prior)) (s : St), (∀ p ∈ l, p ∈ vars c) → (l.map Prod.fst).Nodup →
      (∀ p ∈ l, Fresh s.trace (nm c p.1 .bot) ∧ (∀ x ∈ s.cache, x.1 ≠ nm c p.1 .bot) ∧
        (s.cache.find? fun x => x.1 == nm c p.1 .loc) = some (nm c p.1 .loc, Val.const p.2.k (θ.loc p.1)) ∧
        (s.cache.find? fun x => x.1 == nm c p.1 .scale) = some (nm c p.1 .scale, Val.const p.2.k (θ.scale p.1))) →
      ∃ cache', getAll c ⟨some nb, w, guideTrace c nb θ, draw⟩ (fuel + 2) (l.map Prod.fst) s =
        .ok (l.map (vBot nb θ), ⟨s.trace ++ l.map (mBot c nb w θ), cache', s.store⟩) := by
  intro l
  induction l with
  | nil =>
    intro s _ _ _
    exact ⟨s.cache, by simp [getAll]⟩
  | cons p l ih =>
    intro s hsub hnd hfr
    have hp := hsub p (List.mem_cons_self ..)
    have hne : ∀ p' ∈ l, p'.1 ≠ p.1 := by
      intro p' hp' h
      rw [List.map_cons, List.nodup_cons] at hnd
      exact hnd.1 (h ▸ List.mem_map_of_mem hp')
    have hx : ∀ p' ∈ l, ∀ a a', nm c p.1 a' ≠ nm c p'.1 a := fun p' hp' a a' h =>
      hne p' hp' (hc.inj p.1 (hc.mem hp) p'.1 (hc.mem (hsub p' (List.mem_cons_of_mem _ hp'))) a' a h).1.symm
    obtain ⟨-, -, f3⟩ := guideTrace_find hc nb θ hp
    obtain ⟨a1, a2, a3⟩ := attr_loc hc hp
    obtain ⟨g1, g2, g3, g4⟩ := hfr p (List.mem_cons_self ..)
    have step : get c ⟨some nb, w, guideTrace c nb θ, draw⟩ (fuel + 2) p.1 s =
        .ok (vBot nb θ p, ⟨s.trace ++ [mBot c nb w θ p], s.cache ++ [(p.1, vBot nb θ p)], s.store⟩) := by
      rw [show get c ⟨some nb, w, guideTrace c nb θ, draw⟩ (fuel + 2) p.1 s = get c ⟨some nb, w, guideTrace c nb θ, draw⟩ (fuel + 1 + 1) (nm c p.1 .bot) s from rfl]
      unfold get
      rw [a3]
      simp only
      rw [find_none s.cache Prod.fst _ g2]
      simp only
      rw [show p.1 ++ c.locSuffix = nm c p.1 .loc from rfl, show p.1 ++ c.scaleSuffix = nm c p.1 .scale from rfl, get_cached c _ fuel _ _ s _ a1 g3]
      simp only
      rw [get_cached c _ fuel _ _ s _ a2 g4]
      simp only
      rw [show Dist.normal (Val.const p.2.k (θ.loc p.1)) (Val.const p.2.k (θ.scale p.1)) = dBot θ p from rfl,
        sample_replay ⟨some nb, w, guideTrace c nb θ, draw⟩ _ (dBot θ p) s _ (hθ p hp) (.inl rfl) f3 rfl rfl rfl rfl trivial g1]
      rfl
    obtain ⟨cache', h1⟩ := ih ⟨s.trace ++ [mBot c nb w θ p], s.cache ++ [(p.1, vBot nb θ p)], s.store⟩ (fun p' hp' => hsub p' (List.mem_cons_of_mem _ hp'))
      (by rw [List.map_cons, List.nodup_cons] at hnd; exact hnd.2) (by
        intro p' hp'
        obtain ⟨k1, k2, k3, k4⟩ := hfr p' (List.mem_cons_of_mem _ hp')
        refine ⟨k1.append (fresh_single (hx p' hp' .bot .bot)), ?_, ?_, ?_⟩
        · intro x hx'
          rcases List.mem_append.1 hx' with hx' | hx'
          · exact k2 x hx'
          · rw [List.mem_singleton.1 hx']
            exact hx p' hp' .bot .bot
        · simp only [List.find?_append, k3, Option.some_or]
        · simp only [List.find?_append, k4, Option.some_or])
    refine ⟨cache', ?_⟩
    rw [List.map_cons]
    unfold getAll
    rw [step]
    simp only
    rw [h1]
    simp only [List.map_cons, List.append_assoc, List.cons_append, List.nil_append]

/-- The model's node for reading one extra parameter. -/
def mExtra (c : Config) (nb : ℕ) (θ : Theta) (p : String × Prior) : Node := ⟨nm c p.1 .botP, .param, false, vBot nb θ p, 0⟩

theorem extra_run (c : Config) (hc : Clean c) (nb : ℕ) (θ : Theta) (s : St) (hst : Stored c nb s.store θ)
    (hfr : ∀ p ∈ vars c, Fresh s.trace (nm c p.1 .botP)) :
    extraParams (extraParamNames c true) s = .ok ((vars c).map (vBot nb θ), ⟨s.trace ++ (vars c).map (mExtra c nb θ), s.cache, s.store⟩) := by
  have hnames : extraParamNames c true = (vars c).map fun p => nm c p.1 .botP := by
    unfold extraParamNames
    rw [if_pos rfl, ← hc.map_fst, List.map_map]
    rfl
  unfold extraParams
  rw [if_neg, hnames]
  · have key : ∀ (l : List (String × Prior)) (vs : List Val) (t : List Node), (∀ p ∈ l, p ∈ vars c) → (l.map Prod.fst).Nodup →
        (∀ p ∈ l, Fresh t (nm c p.1 .botP)) →
        (l.map fun p => nm c p.1 .botP).foldl (fun (acc : Except String (List Val × St)) n =>
          match acc with
          | .error err => .error err
          | .ok (vs, s) =>
            match param n none s with
            | .error err => .error err
            | .ok (v, s) => .ok (vs ++ [v], s)) (.ok (vs, ⟨t, s.cache, s.store⟩)) =
          .ok (vs ++ l.map (vBot nb θ), ⟨t ++ l.map (mExtra c nb θ), s.cache, s.store⟩) := by
      intro l
      induction l with
      | nil => intro vs t _ _ _; simp
      | cons p l ih =>
        intro vs t hsub hnd hf
        have hp := hsub p (List.mem_cons_self ..)
        rw [List.map_cons, List.foldl_cons]
        simp only
        rw [param_read _ ⟨t, s.cache, s.store⟩ _ (hf p (List.mem_cons_self ..)) (hst.test p hp)]
        simp only
        rw [ih _ _ (fun p' hp' => hsub p' (List.mem_cons_of_mem _ hp')) (by rw [List.map_cons, List.nodup_cons] at hnd; exact hnd.2)]
        · simp only [List.map_cons, List.append_assoc, List.cons_append, List.nil_append]
          rfl
        · intro p' hp'
          refine (hf p' (List.mem_cons_of_mem _ hp')).append (fresh_single ?_)
          intro h
          have := (hc.inj p.1 (hc.mem hp) p'.1 (hc.mem (hsub p' (List.mem_cons_of_mem _ hp'))) .botP .botP h).1
          rw [List.map_cons, List.nodup_cons] at hnd
          exact hnd.1 (this ▸ List.mem_map_of_mem hp')
    have := key (vars c) [] s.trace (fun _ h => h) (by rw [hc.map_fst]; exact hc.nodup) hfr
    rw [List.nil_append] at this
    exact this
  · rintro ⟨n, hn, h⟩
    rw [hnames] at hn
    obtain ⟨p, hp, rfl⟩ := List.mem_map.1 hn
    have := hst.test p hp
    unfold lk at this
    rw [h] at this
    simp at this

/-- The model's node for the noise. -/
noncomputable def mEps (c : Config) (θ : Theta) : List Node :=
  if c.includeNoise then [mNode none (fun _ => 1) "eps" (.halfNormal (noiseVal c.noise)) (Val.const (noiseVal c.noise).k θ.eps)] else []

/-- The trace of the model. -/
noncomputable def modelTrace (c : Config) (nt nb : ℕ) (w : ℕ → ℝ) (θ : Theta) (obs : Bool) (y results : ℕ → ℕ → ℝ) (noise : ℕ → ℝ) : List Node :=
  (vars c).flatMap (mTop c θ) ++ mEps c θ ++ [⟨"trials", .plate, false, Val.const 0 0, 0⟩] ++ (vars c).map (mBot c nb w θ) ++
    (vars c).map (mExtra c nb θ) ++ [⟨"time", .plate, false, Val.const 0 0, 0⟩] ++
    [⟨"obs", .sample, obs, ⟨some nt, nb, y⟩, ∑ t ∈ Finset.range nt, ∑ b ∈ Finset.range nb, w b * logNormal (y t b) (results t b) (noise b)⟩]

theorem noiseOf_noiseVal (n : ℝ ⊕ List ℝ) : noiseOf n.isRight (noiseVal n) = n := by
  cases n with
  | inl v => simp [noiseOf, noiseVal, Val.at, Val.const]
  | inr l =>
    simp only [noiseOf, noiseVal, Val.const, Val.at, Sum.isRight_inr, if_true]
    congr 1
    refine List.ext_getElem (by simp) fun i h1 h2 => ?_
    simp [Val.at, h2]

theorem noiseOf_theta (n : ℝ ⊕ List ℝ) (f : ℕ → ℝ) : noiseOf n.isRight (Val.const (noiseVal n).k f) =
    match n with
    | .inl _ => .inl (f 0)
    | .inr l => .inr ((List.range l.length).map f) := by
  cases n with
  | inl v => simp [noiseOf, Val.at, Val.const]
  | inr l =>
    simp only [noiseOf, Val.const, Sum.isRight_inr, if_true]
    rfl

theorem forward_run (o : Obj) (hc : Clean o.c) (hv : PriorsValid o.c) (fuel : ℕ) (hf : o.fuel = fuel + 2) (θ : Theta)
    (hθ : ∀ p ∈ vars o.c, ∀ i < p.2.k, 0 < θ.scale p.1 i) (heps : o.c.includeNoise = true → ∀ i < (noiseVal o.c.noise).k, 0 < θ.eps i)
    (g1 : ℕ → ℝ) (g2 : ℕ → ℕ → ℝ) (draw : String → ℕ → ℕ → ℝ) (x : Data) (obs : Option (ℕ → ℕ → ℝ)) (store : List (String × Val))
    (hst : Stored o.c x.nb store θ) (noise : ℕ → ℝ) (hn : fullNoise g1 (noiseIn o.c θ) x.types = .ok noise) (hn0 : ∀ b < x.nb, 0 < noise b)
    (hw : ∀ b < x.nb, 0 < weightTensor o.w x.types b) (results : ℕ → ℕ → ℝ)
    (hr : simulate g2 (o.maker ((vars o.c).map (vBot x.nb θ)) ((vars o.c).map (vBot x.nb θ))) x = .ok results) :
    ∃ cache', forward o g1 g2 true (guideTrace o.c x.nb θ) draw x obs store =
      .ok (results, ⟨modelTrace o.c x.nt x.nb (weightTensor o.w x.types) θ obs.isSome (obs.getD (draw "obs")) results noise, cache', store⟩) := by
  have hnd : ((vars o.c).map Prod.fst).Nodup := by rw [hc.map_fst]; exact hc.nodup
  have hinj : ∀ p ∈ vars o.c, ∀ p' ∈ vars o.c, ∀ a a', nm o.c p.1 a = nm o.c p'.1 a' → p.1 = p'.1 ∧ a = a' :=
    fun p hp p' hp' => hc.inj p.1 (hc.mem hp) p'.1 (hc.mem hp')
  have e1 := getAll_top o.c hc hv θ hθ x.nb (fuel + 1) draw (vars o.c) ⟨[], [], store⟩ (fun _ h => h) hnd (fun p _ a _ => by simp [Fresh])
  simp only [List.nil_append] at e1
  -- names in the first part of the trace
  have ntop : ∀ q ∈ (vars o.c).flatMap (mTop o.c θ), ∃ p ∈ vars o.c, ∃ a, (a = .loc ∨ a = .scale) ∧ q.name = nm o.c p.1 a := by
    intro q hq
    obtain ⟨p, hp, hq⟩ := List.mem_flatMap.1 hq
    simp only [mTop, List.mem_cons, List.not_mem_nil, or_false] at hq
    rcases hq with rfl | rfl
    exacts [⟨p, hp, .loc, .inl rfl, rfl⟩, ⟨p, hp, .scale, .inr rfl, rfl⟩]
  have ctop : ∀ q ∈ (vars o.c).flatMap (cTop o.c θ), ∃ p ∈ vars o.c, ∃ a, (a = .loc ∨ a = .scale) ∧ q.1 = nm o.c p.1 a := by
    intro q hq
    obtain ⟨p, hp, hq⟩ := List.mem_flatMap.1 hq
    simp only [cTop, List.mem_cons, List.not_mem_nil, or_false] at hq
    rcases hq with rfl | rfl
    exacts [⟨p, hp, .loc, .inl rfl, rfl⟩, ⟨p, hp, .scale, .inr rfl, rfl⟩]
  have ftop : ∀ n, (∀ v ∈ o.c.names, ∀ a, nm o.c v a ≠ n) → Fresh ((vars o.c).flatMap (mTop o.c θ)) n := by
    intro n hn q hq
    obtain ⟨p, hp, a, -, h⟩ := ntop q hq
    rw [h]
    exact hn _ (hc.mem hp) a
  have ftop2 : ∀ p ∈ vars o.c, ∀ a, a ≠ .loc → a ≠ .scale → Fresh ((vars o.c).flatMap (mTop o.c θ)) (nm o.c p.1 a) := by
    intro p hp a h1 h2 q hq
    obtain ⟨p', hp', a', ha', h⟩ := ntop q hq
    rw [h]
    intro h
    have := (hinj p' hp' p hp _ _ h).2
    subst this
    rcases ha' with h | h
    exacts [h1 h, h2 h]
  -- the noise
  obtain ⟨eps, ceps, e2, e2', hceps⟩ : ∃ eps ceps, get o.c ⟨none, fun _ => 1, guideTrace o.c x.nb θ, draw⟩ (fuel + 2) "eps"
      ⟨(vars o.c).flatMap (mTop o.c θ), (vars o.c).flatMap (cTop o.c θ), store⟩ =
        .ok (eps, ⟨(vars o.c).flatMap (mTop o.c θ) ++ mEps o.c θ, (vars o.c).flatMap (cTop o.c θ) ++ ceps, store⟩) ∧
      noiseOf o.c.noise.isRight eps = noiseIn o.c θ ∧ ∀ q ∈ ceps, q.1 = "eps" := by
    by_cases hi : o.c.includeNoise = true
    · have ha := attr_eps o.c
      rw [if_pos hi] at ha
      refine ⟨Val.const (noiseVal o.c.noise).k θ.eps, [("eps", Val.const (noiseVal o.c.noise).k θ.eps)], ?_, (noiseOf_theta _ _).trans ?_, ?_⟩
      · rw [get_prior o.c _ (fuel + 1) "eps" _ _ _ ha ?_ (hv.2 hi) ?_ (guideTrace_eps hc x.nb θ hi) rfl rfl rfl rfl ?_ ?_]
        · simp only [mEps, hi, if_true]
        · intro y hy
          obtain ⟨p, hp, a, -, h⟩ := ctop y hy
          rw [h]
          exact (hc.var _ (hc.mem hp) a).1
        · left
          cases o.c.noise <;> rfl
        · intro b _ i hi'
          exact (heps hi i hi').le
        · exact ftop _ fun v hv a => (hc.var v hv a).1
      · unfold noiseIn
        rw [if_pos hi]
        cases o.c.noise <;> rfl
      · intro q hq
        rw [List.mem_singleton.1 hq]
    · have ha := attr_eps o.c
      rw [if_neg hi] at ha
      refine ⟨noiseVal o.c.noise, [], ?_, ?_, by simp⟩
      · unfold get
        rw [ha]
        simp only [mEps, if_neg hi, List.append_nil]
      · unfold noiseIn
        rw [if_neg hi, noiseOf_noiseVal]
  have feps : ∀ n, n ≠ "eps" → Fresh (mEps o.c θ) n := by
    intro n h1 q hq
    unfold mEps at hq
    split_ifs at hq with hi
    · rw [List.mem_singleton.1 hq]
      exact h1.symm
    · simp at hq
  have e3 : plate "trials" ⟨(vars o.c).flatMap (mTop o.c θ) ++ mEps o.c θ, (vars o.c).flatMap (cTop o.c θ) ++ ceps, store⟩ =
      .ok ⟨(vars o.c).flatMap (mTop o.c θ) ++ mEps o.c θ ++ [⟨"trials", .plate, false, Val.const 0 0, 0⟩], (vars o.c).flatMap (cTop o.c θ) ++ ceps, store⟩ := by
    unfold plate
    rw [addNode_fresh _ _ ((ftop _ fun v hv a => (hc.var v hv a).2.2.1).append (feps _ (by decide)))]
  -- the values in the tests
  have hcf : ∀ p ∈ vars o.c, (((vars o.c).flatMap (cTop o.c θ)).find? fun y => y.1 == nm o.c p.1 .loc) = some (nm o.c p.1 .loc, Val.const p.2.k (θ.loc p.1)) ∧
      (((vars o.c).flatMap (cTop o.c θ)).find? fun y => y.1 == nm o.c p.1 .scale) = some (nm o.c p.1 .scale, Val.const p.2.k (θ.scale p.1)) := by
    intro p hp
    have hpp : ∀ p' ∈ vars o.c, p'.1 = p.1 → p' = p := fun p' hp' h => List.inj_on_of_nodup_map hnd hp' hp h
    constructor
    · refine find_unique _ Prod.fst (nm o.c p.1 .loc, Val.const p.2.k (θ.loc p.1)) (List.mem_flatMap.2 ⟨p, hp, by simp [cTop]⟩) fun y hy h => ?_
      obtain ⟨p', hp', hy⟩ := List.mem_flatMap.1 hy
      simp only [cTop, List.mem_cons, List.not_mem_nil, or_false] at hy
      rcases hy with rfl | rfl
      · rw [hpp p' hp' (hinj p' hp' p hp .loc .loc h).1]
      · exact absurd (hinj p' hp' p hp .scale .loc h).2 (by simp)
    · refine find_unique _ Prod.fst (nm o.c p.1 .scale, Val.const p.2.k (θ.scale p.1)) (List.mem_flatMap.2 ⟨p, hp, by simp [cTop]⟩) fun y hy h => ?_
      obtain ⟨p', hp', hy⟩ := List.mem_flatMap.1 hy
      simp only [cTop, List.mem_cons, List.not_mem_nil, or_false] at hy
      rcases hy with rfl | rfl
      · exact absurd (hinj p' hp' p hp .loc .scale h).2 (by simp)
      · rw [hpp p' hp' (hinj p' hp' p hp .scale .scale h).1]
  obtain ⟨cache', e4⟩ := getAll_bot o.c hc θ hθ x.nb fuel (weightTensor o.w x.types) draw (vars o.c)
    ⟨(vars o.c).flatMap (mTop o.c θ) ++ mEps o.c θ ++ [⟨"trials", .plate, false, Val.const 0 0, 0⟩], (vars o.c).flatMap (cTop o.c θ) ++ ceps, store⟩ (fun _ h => h) hnd (by
      intro p hp
      have hvar := hc.var _ (hc.mem hp) .bot
      refine ⟨((ftop2 p hp .bot (by simp) (by simp)).append (feps _ hvar.1)).append (fresh_single hvar.2.2.1.symm), ?_, ?_, ?_⟩
      · intro y hy
        rcases List.mem_append.1 hy with hy | hy
        · obtain ⟨p', hp', a, ha, h⟩ := ctop y hy
          rw [h]
          intro h
          have := (hinj p' hp' p hp _ _ h).2
          subst this
          simp at ha
        · rw [hceps y hy]
          exact hvar.1.symm
      · simp only [List.find?_append, (hcf p hp).1, Option.some_or]
      · simp only [List.find?_append, (hcf p hp).2, Option.some_or])
  rw [hc.map_fst] at e4
  have nbot : ∀ q ∈ (vars o.c).map (mBot o.c x.nb (weightTensor o.w x.types) θ), ∃ p ∈ vars o.c, q.name = nm o.c p.1 .bot := by
    intro q hq
    obtain ⟨p, hp, rfl⟩ := List.mem_map.1 hq
    exact ⟨p, hp, rfl⟩
  have e5 := extra_run o.c hc x.nb θ ⟨(vars o.c).flatMap (mTop o.c θ) ++ mEps o.c θ ++ [⟨"trials", .plate, false, Val.const 0 0, 0⟩] ++
      (vars o.c).map (mBot o.c x.nb (weightTensor o.w x.types) θ), cache', store⟩ hst (by
    intro p hp
    have hvar := hc.var _ (hc.mem hp) .botP
    refine (((ftop2 p hp .botP (by simp) (by simp)).append (feps _ hvar.1)).append (fresh_single hvar.2.2.1.symm)).append ?_
    intro q hq
    obtain ⟨p', hp', h⟩ := nbot q hq
    rw [h]
    intro h
    exact absurd (hinj p' hp' p hp _ _ h).2 (by simp))
  simp only at e5
  have fall : ∀ n, (∀ v ∈ o.c.names, ∀ a, nm o.c v a ≠ n) → n ≠ "eps" → n ≠ "trials" → Fresh ((vars o.c).flatMap (mTop o.c θ) ++ mEps o.c θ ++
      [⟨"trials", .plate, false, Val.const 0 0, 0⟩] ++ (vars o.c).map (mBot o.c x.nb (weightTensor o.w x.types) θ) ++ (vars o.c).map (mExtra o.c x.nb θ)) n := by
    intro n h1 h2 h3
    refine ((((ftop n h1).append (feps n h2)).append (fresh_single h3.symm)).append ?_).append ?_
    · intro q hq
      obtain ⟨p', hp', h⟩ := nbot q hq
      rw [h]
      exact h1 _ (hc.mem hp') _
    · intro q hq
      obtain ⟨p, hp, rfl⟩ := List.mem_map.1 hq
      exact h1 _ (hc.mem hp) .botP
  refine ⟨cache', ?_⟩
  unfold forward
  simp only
  rw [hf, show topVars o.c = (vars o.c).flatMap fun p => [p.1 ++ o.c.locSuffix, p.1 ++ o.c.scaleSuffix] from rfl, e1]
  simp only
  rw [e2]
  simp only
  rw [e2', hn]
  simp only
  rw [e3]
  simp only
  rw [if_neg (not_not.2 hw), e4]
  simp only
  rw [e5]
  simp only
  rw [hr]
  simp only
  unfold plate
  rw [addNode_fresh _ _ (fall _ (fun v hv a => (hc.var v hv a).2.2.2.1) (by decide) (by decide))]
  simp only
  unfold sampleObs
  rw [if_neg (not_not.2 hn0)]
  simp only
  rw [addNode_fresh _ _ ((fall _ (fun v hv a => (hc.var v hv a).2.2.2.2) (by decide) (by decide)).append (fresh_single (by decide)))]
  rfl

/-! ### Clean names -/

theorem clean_of_nodup {c : Config} (hlen : c.names.length = c.priors.length) (h : (siteNames c).Nodup) : Clean c := by
  unfold siteNames at h
  rw [List.nodup_append] at h
  obtain ⟨h1, h2, h3⟩ := h
  have hmap : (vars c).map Prod.fst = c.names := by rw [List.map_fst_zip hlen.le]
  have hex : ∀ v ∈ c.names, ∃ p ∈ vars c, p.1 = v := by
    intro v hv
    rw [← hmap] at hv
    obtain ⟨p, hp, rfl⟩ := List.mem_map.1 hv
    exact ⟨p, hp, rfl⟩
  rw [List.nodup_flatMap] at h1
  obtain ⟨hin, hpw⟩ := h1
  have hmem : ∀ (v : String) (a : Slot), nm c v a ∈ [v, v ++ c.locSuffix, v ++ c.scaleSuffix, v ++ c.paramSuffix, v ++ c.locSuffix ++ c.paramSuffix,
      v ++ c.scaleSuffix ++ c.paramSuffix] := by
    intro v a
    cases a <;> simp [nm]
  have hnd : c.names.Nodup := by
    rw [← hmap, List.Nodup, List.pairwise_map]
    refine hpw.imp fun {p q} hpq h => ?_
    exact hpq (hmem p.1 .bot) (h ▸ hmem q.1 .bot)
  refine ⟨hlen, hnd, ?_, ?_, ?_⟩
  · intro v hv v' hv' a a' heq
    obtain ⟨p, hp, rfl⟩ := hex v hv
    obtain ⟨p', hp', rfl⟩ := hex v' hv'
    have hpp : p = p' := by
      by_contra hne
      haveI : Std.Symm (Function.onFun List.Disjoint fun p : String × Prior => [p.1, p.1 ++ c.locSuffix, p.1 ++ c.scaleSuffix, p.1 ++ c.paramSuffix,
          p.1 ++ c.locSuffix ++ c.paramSuffix, p.1 ++ c.scaleSuffix ++ c.paramSuffix]) := ⟨fun _ _ h => List.Disjoint.symm h⟩
      have := hpw.forall hp hp' hne
      exact this (hmem p.1 a) (heq ▸ hmem p'.1 a')
    subst hpp
    refine ⟨rfl, ?_⟩
    have := hin p hp
    simp only [List.nodup_cons, List.mem_cons, List.not_mem_nil, or_false, not_or, not_false_eq_true, List.nodup_nil, and_true] at this
    obtain ⟨⟨a1, a2, a3, a4, a5⟩, ⟨b1, b2, b3, b4⟩, ⟨c1, c2, c3⟩, ⟨d1, d2⟩, e1⟩ := this
    cases a <;> cases a' <;> simp only [nm] at heq <;> first | rfl | exact absurd heq (by assumption) | exact absurd heq.symm (by assumption)
  · intro v hv a
    obtain ⟨p, hp, rfl⟩ := hex v hv
    have : ∀ n ∈ ["eps", "eps" ++ c.paramSuffix, "trials", "time", "obs"], nm c p.1 a ≠ n :=
      fun n hn => h3 _ (List.mem_flatMap.2 ⟨p, hp, hmem p.1 a⟩) _ hn
    exact ⟨this _ (by simp), this _ (by simp), this _ (by simp), this _ (by simp), this _ (by simp)⟩
  · simp only [List.nodup_cons, List.mem_cons, List.not_mem_nil, or_false, not_or] at h2
    obtain ⟨⟨a1, -⟩, ⟨b1, b2, b3⟩, -⟩ := h2
    exact ⟨fun h => a1 h.symm, b1, b2, b3⟩

/-! ### The objective -/

/-- The logarithm of the posterior, term by term. -/
noncomputable def logPosterior (c : Config) (nt nb : ℕ) (θ : Theta) (w : ℕ → ℝ) (results y : ℕ → ℕ → ℝ) (noise : ℕ → ℝ) : ℝ :=
  ((vars c).map fun p => ∑ i ∈ Finset.range p.2.k, (logNormal (θ.loc p.1 i) (p.2.locLoc i) (p.2.locScale i) + logHalfNormal (θ.scale p.1 i) (p.2.scaleScale i))).sum +
    (if c.includeNoise then ∑ i ∈ Finset.range (noiseVal c.noise).k, logHalfNormal (θ.eps i) ((noiseVal c.noise).get 0 i) else 0) +
    ∑ b ∈ Finset.range nb, w b * (((vars c).map fun p => ∑ i ∈ Finset.range p.2.k, logNormal (θ.test p.1 b i) (θ.loc p.1 i) (θ.scale p.1 i)).sum +
      ∑ t ∈ Finset.range nt, logNormal (y t b) (results t b) (noise b))

theorem list_sum_swap {α : Type} (l : List α) (nb : ℕ) (w : ℕ → ℝ) (F : α → ℕ → ℝ) :
    (l.map fun p => ∑ b ∈ Finset.range nb, w b * F p b).sum = ∑ b ∈ Finset.range nb, w b * (l.map fun p => F p b).sum := by
  induction l with
  | nil => simp
  | cons p l ih => simp only [List.map_cons, List.sum_cons, ih, mul_add, Finset.sum_add_distrib]

theorem sum_flatMap {α : Type} (l : List α) (f : α → List Node) : logProbSum (l.flatMap f) = (l.map fun p => logProbSum (f p)).sum := by
  induction l with
  | nil => rfl
  | cons p l ih =>
    unfold logProbSum at ih ⊢
    simp only [List.flatMap_cons, List.map_append, List.sum_append, List.map_cons, List.sum_cons, ih]

theorem logProbSum_append (l l' : List Node) : logProbSum (l ++ l') = logProbSum l + logProbSum l' := by
  unfold logProbSum
  rw [List.map_append, List.sum_append]

theorem logProbSum_map {α : Type} (l : List α) (f : α → Node) : logProbSum (l.map f) = (l.map fun p => (f p).logp).sum := by
  unfold logProbSum
  rw [List.map_map]
  rfl

theorem noiseVal_at (n : ℝ ⊕ List ℝ) (b i : ℕ) : (noiseVal n).at b i = (noiseVal n).get 0 i := by
  cases n <;> rfl

theorem modelTrace_sum (c : Config) (nt nb : ℕ) (w : ℕ → ℝ) (θ : Theta) (o : Bool) (y results : ℕ → ℕ → ℝ) (noise : ℕ → ℝ) :
    logProbSum (modelTrace c nt nb w θ o y results noise) = logPosterior c nt nb θ w results y noise := by
  unfold modelTrace logPosterior
  simp only [logProbSum_append, sum_flatMap, logProbSum_map]
  have h1 : ∀ p : String × Prior, logProbSum (mTop c θ p) = ∑ i ∈ Finset.range p.2.k,
      (logNormal (θ.loc p.1 i) (p.2.locLoc i) (p.2.locScale i) + logHalfNormal (θ.scale p.1 i) (p.2.scaleScale i)) := by
    intro p
    simp only [mTop, logProbSum, mNode, List.map_cons, List.map_nil, List.sum_cons, List.sum_nil, add_zero, Option.getD_none, Finset.range_one, one_mul,
      Finset.sum_singleton, dLoc, dScale, Dist.logProb, Dist.k, Finset.sum_add_distrib]
    rfl
  have h2 : logProbSum (mEps c θ) = if c.includeNoise then ∑ i ∈ Finset.range (noiseVal c.noise).k, logHalfNormal (θ.eps i) ((noiseVal c.noise).get 0 i) else 0 := by
    unfold mEps
    split_ifs
    · simp only [logProbSum, mNode, List.map_cons, List.map_nil, List.sum_cons, List.sum_nil, add_zero, Option.getD_none, Finset.range_one, one_mul,
        Finset.sum_singleton, Dist.logProb, Dist.k, noiseVal_at]
      rfl
    · rfl
  have h3 : ∀ p : String × Prior, (mBot c nb w θ p).logp = ∑ b ∈ Finset.range nb, w b * ∑ i ∈ Finset.range p.2.k,
      logNormal (θ.test p.1 b i) (θ.loc p.1 i) (θ.scale p.1 i) := by
    intro p
    simp only [mBot, mNode, Option.getD_some]
    refine Finset.sum_congr rfl fun b hb => ?_
    congr 1
    refine Finset.sum_congr rfl fun i _ => ?_
    simp only [dBot, Dist.logProb]
    congr 1
    unfold Val.at
    simp only
    split_ifs with h
    · subst h
      obtain rfl : b = 0 := by simpa using hb
      rfl
    · rfl
  have h4 : ∀ p : String × Prior, (mExtra c nb θ p).logp = 0 := fun _ => rfl
  simp only [h1, h2, h3, h4, list_sum_swap]
  simp only [logProbSum, List.map_cons, List.map_nil, List.sum_cons, List.sum_nil, add_zero, List.map_const', List.sum_replicate, smul_zero, mul_add,
    Finset.sum_add_distrib]
  rw [Finset.sum_comm]
  simp only [Finset.mul_sum]
  ring

theorem guideTrace_sum (c : Config) (nb : ℕ) (θ : Theta) : logProbSum (guideTrace c nb θ) = 0 := by
  unfold logProbSum
  refine List.sum_eq_zero ?_
  intro r hr
  obtain ⟨q, hq, rfl⟩ := List.mem_map.1 hr
  unfold guideTrace at hq
  simp only [List.mem_append, List.mem_flatMap, List.mem_singleton] at hq
  rcases hq with ((⟨p', hp', hq⟩ | hq) | rfl) | ⟨p', hp', hq⟩
  · simp only [gTop, List.mem_cons, List.not_mem_nil, or_false] at hq
    rcases hq with rfl | rfl | rfl | rfl <;> rfl
  · unfold gEps at hq
    split_ifs at hq
    · simp only [List.mem_cons, List.not_mem_nil, or_false] at hq
      rcases hq with rfl | rfl <;> rfl
    · simp at hq
  · rfl
  · simp only [gBot, List.mem_cons, List.not_mem_nil, or_false] at hq
    rcases hq with rfl | rfl <;> rfl

theorem exp_logPosterior (c : Config) (hv : PriorsValid c) (nt nb : ℕ) (θ : Theta) (hθ : ∀ p ∈ vars c, ∀ i < p.2.k, 0 < θ.scale p.1 i)
    (heps : c.includeNoise = true → ∀ i < (noiseVal c.noise).k, 0 < θ.eps i) (w : ℕ → ℝ) (results y : ℕ → ℕ → ℝ) (noise : ℕ → ℝ) (hn : ∀ b < nb, 0 < noise b) :
    Real.exp (logPosterior c nt nb θ w results y noise) = posterior (vars c) (epsDensity c θ) nt nb θ w results y noise := by
  unfold logPosterior posterior
  rw [Real.exp_add, Real.exp_add, Real.exp_list_sum, Real.exp_sum, List.map_map]
  congr 1
  · congr 1
    · congr 1
      refine List.map_congr_left fun p hp => ?_
      simp only [Function.comp, topDensity]
      rw [Real.exp_sum]
      refine Finset.prod_congr rfl fun i hi => ?_
      have hi := Finset.mem_range.1 hi
      rw [Real.exp_add, exp_logNormal ((hv.1 p hp).1 i hi), exp_logHalfNormal ((hv.1 p hp).2 i hi) (hθ p hp i hi).le]
    · unfold epsDensity
      split_ifs with hi
      · rw [Real.exp_sum]
        refine Finset.prod_congr rfl fun i hi' => ?_
        have hi' := Finset.mem_range.1 hi'
        refine exp_logHalfNormal ?_ (heps hi i hi').le
        have := hv.2 hi
        cases hno : c.noise <;> rw [hno] at this hi' <;> exact this i hi'
      · exact Real.exp_zero
  · refine Finset.prod_congr rfl fun b hb => ?_
    have hb := Finset.mem_range.1 hb
    rw [mul_comm, Real.exp_mul]
    congr 1
    rw [Real.exp_add, Real.exp_list_sum, Real.exp_sum, List.map_map]
    congr 1
    · congr 1
      refine List.map_congr_left fun p hp => ?_
      simp only [Function.comp, testDensity]
      rw [Real.exp_sum]
      exact Finset.prod_congr rfl fun i hi => exp_logNormal (hθ p hp i (Finset.mem_range.1 hi))
    · exact Finset.prod_congr rfl fun t _ => exp_logNormal (hn b hb)

theorem elbo_run (o : Obj) (hc : Clean o.c) (hv : PriorsValid o.c) (hf : 2 ≤ o.fuel) (θ : Theta)
    (hθ : ∀ p ∈ vars o.c, ∀ i < p.2.k, 0 < θ.scale p.1 i) (heps : o.c.includeNoise = true → ∀ i < (noiseVal o.c.noise).k, 0 < θ.eps i)
    (g1 : ℕ → ℝ) (g2 : ℕ → ℕ → ℝ) (draw draw' : String → ℕ → ℕ → ℝ) (x : Data) (obs : Option (ℕ → ℕ → ℝ)) (store : List (String × Val))
    (hst : Represents o.c x.nb store θ) (noise : ℕ → ℝ) (hn : fullNoise g1 (noiseIn o.c θ) x.types = .ok noise) (hn0 : ∀ b < x.nb, 0 < noise b)
    (hw : ∀ b < x.nb, 0 < weightTensor o.w x.types b) (results : ℕ → ℕ → ℝ)
    (hr : simulate g2 (o.maker ((vars o.c).map (vBot x.nb θ)) ((vars o.c).map (vBot x.nb θ))) x = .ok results) :
    ∃ store', elbo o g1 g2 draw draw' x obs store =
      .ok (logPosterior o.c x.nt x.nb θ (weightTensor o.w x.types) results (obs.getD (draw' "obs")) noise, store') ∧
      Stored o.c x.nb store' θ ∧ ∀ n, (∀ v ∈ o.c.names, ∀ a, n ≠ nm o.c v a) → n ≠ "eps" ++ o.c.paramSuffix → lk store' n = lk store n := by
  obtain ⟨fuel, hf⟩ := Nat.exists_eq_add_of_le hf
  obtain ⟨st', e1, e2, e3⟩ := guide_run o.c hc x.nb draw store θ hst
  obtain ⟨cache', e4⟩ := forward_run o hc hv fuel (by omega) θ hθ heps g1 g2 draw' x obs st' e2 noise hn hn0 hw results hr
  refine ⟨st', ?_, e2, e3⟩
  unfold elbo
  rw [e1]
  simp only
  rw [e4]
  simp only
  rw [modelTrace_sum, guideTrace_sum, sub_zero]

end Pyoptmat.Optimize
