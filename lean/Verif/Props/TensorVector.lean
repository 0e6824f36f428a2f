import Verif.Props.Tensor

/-!
# C102: parameters of backstresses must be constants, and what happens otherwise

`ChabocheHardeningModel` takes "temperature dependent" parameters with one value for each backstress. C101 needs constants there. Here is what the other
classes of `temperature.py` do: with tensors of shape `(nback,)` inside them the evaluation raises, except when the number of
backstresses is the number of tests and the block of time steps has as many steps as tests, or one step (the default): then it succeeds, and backstress `l` gets the
temperature of test `l`. Shapes are written last dimension first, as in C101.
-/

namespace Pyoptmat.Props

open Pyoptmat.Spec Pyoptmat.Tensor Pyoptmat.Material

private theorem map2_none (o : ℝ → ℝ → ℝ) (a b : Tensor) (h : bshape a.shape b.shape = none) : ∃ e, map2 o (a : TE) (b : TE) = .error e := by
  refine ⟨"RuntimeError: sizes of the tensors must match", ?_⟩
  change (match bshape a.shape b.shape with
    | none => (Except.error "RuntimeError: sizes of the tensors must match" : TE)
    | some S => ((⟨S, fun i => o (a.data (bidx a.shape i)) (b.data (bidx b.shape i))⟩ : Tensor) : TE)) = _
  rw [h]

private theorem prod_of_reshape {S : List ℕ} {x r : Tensor} (h : reshape S (x : TE) = (r : TE)) : S.prod = x.shape.prod := by
  by_contra hne
  change (if S.prod = x.shape.prod then ((⟨S, fun i => x.data (unflat x.shape (flat S i))⟩ : Tensor) : TE)
    else (Except.error "RuntimeError: shape is invalid for input" : TE)) = _ at h
  rw [if_neg hne] at h
  cases h

private theorem fits_lead {m n nb nt : ℕ} (h1 : m = n ∨ m = 1) (h2 : nt = 1 ∨ nt = nb) : bshape [m, nt, 1] [n, nb, nt] = some [n, nb, nt] :=
  (fits_cons _ _ _ _).2 ⟨h1, (fits_cons _ _ _ _).2 ⟨h2.symm, (fits_cons _ _ _ _).2 ⟨.inr rfl, rfl⟩⟩⟩

/-- **C102.** `history_rate` of `ChabocheHardeningModel` for `nt` times, `nb` tests, `n` backstresses, constant `g` and a parameter `C` that, at the given temperatures, is a tensor of shape
`(nt, m)`: it succeeds if and only if `m` is `n` or 1 and `nt` is 1 or `nb`; and then the entry for time `k`, test `j`, backstress `l` is formed with the
entry of `C` for time `j`. -/
theorem C102_chaboche_rate {C g : TParam} {c γ s h t ep T e : Tensor} {m n nb nt : ℕ} (hn : 0 < n) (hnb : 0 < nb) (hnt : 0 < nt)
    (hC : C.call T = (c : TE)) (hc : c.shape = [m, nt]) (hg : g.call T = (γ : TE)) (hγ : γ.shape = [n]) (hh : h.shape = [n, nb, nt])
    (hep : ep.shape = [nb, nt]) :
    ((∃ r : Tensor, (tChaboche C g).rate s h t ep T e = (r : TE)) ↔ (m = n ∨ m = 1) ∧ (nt = 1 ∨ nt = nb)) ∧
    ∀ r : Tensor, (tChaboche C g).rate s h t ep T e = (r : TE) → r.shape = [n, nb, nt] ∧ ∀ k < nt, ∀ j < nb, ∀ l < n,
      r.data [l, j, k] = c.data [if m = 1 then 0 else l, if nt = 1 then 0 else j] * ep.data [j, k] - γ.data [l] * h.data [l, j, k] * |ep.data [j, k]| := by
  have hi3 : ∀ i, Valid [n, nb, nt] i → ∃ l j k, i = [l, j, k] ∧ l < n ∧ j < nb ∧ k < nt := by
    intro i hi
    obtain ⟨l, i, rfl, hl, hi⟩ := valid_cons_iff.1 hi
    obtain ⟨j, i, rfl, hj, hi⟩ := valid_cons_iff.1 hi
    obtain ⟨k, i, rfl, hk, hi⟩ := valid_cons_iff.1 hi
    cases hi
    exact ⟨l, j, k, rfl, hl, hj, hk⟩
  have ok : (m = n ∨ m = 1) ∧ (nt = 1 ∨ nt = nb) → Is [n, nb, nt] ((tChaboche C g).rate s h t ep T e) fun i =>
      c.data [if m = 1 then 0 else i.headD 0, if nt = 1 then 0 else i.tail.headD 0] * ep.data i.tail - γ.data [i.headD 0] * h.data i * |ep.data i.tail| := by
    rintro ⟨h1, h2⟩
    have k1 : Rep [n, nb, nt] (lead c) fun i => c.data [if m = 1 then 0 else i.headD 0, if nt = 1 then 0 else i.tail.headD 0] := by
      refine ⟨_, rfl, ?_, fun i hi => ?_⟩
      · change bshape (c.shape ++ [1]) _ = _
        rw [hc]
        exact fits_lead h1 h2
      · obtain ⟨l, j, k, rfl, -, -, -⟩ := hi3 i hi
        change c.data ((bidx (c.shape ++ [1]) [l, j, k]).take c.shape.length) = _
        rw [hc]
        rfl
    have k2 : Rep [n, nb, nt] (lead γ) fun i => γ.data [i.headD 0] := by
      refine ⟨_, rfl, ?_, fun i hi => ?_⟩
      · change bshape (γ.shape ++ [1]) _ = _
        rw [hγ]
        exact (fits_cons _ _ _ _).2 ⟨.inl rfl, (fits_cons _ _ _ _).2 ⟨.inr rfl, rfl⟩⟩
      · obtain ⟨l, j, k, rfl, hl, -, -⟩ := hi3 i hi
        change γ.data ((bidx (γ.shape ++ [1]) [l, j, k]).take γ.shape.length) = _
        rw [hγ]
        change γ.data [if n = 1 then 0 else l] = γ.data [l]
        congr 2
        split_ifs <;> omega
    have k3 : Is [n, nb, nt] (h : TE) h.data := ⟨h, rfl, hh, fun _ _ => rfl⟩
    have k4 : Is [nb, nt] (ep : TE) ep.data := ⟨ep, rfl, hep, fun _ _ => rfl⟩
    have k5 := Is.sub_right (k1.mul (k4.rep.unsq n)) ((Is.mul_right k2 k3).mul_left ((k4.map abs).rep.unsq n))
    dsimp only [tChaboche]
    rw [hh, hC, hg]
    exact k5.reshape
  have bad : ∀ r : Tensor, (tChaboche C g).rate s h t ep T e = (r : TE) → (m = n ∨ m = 1) ∧ (nt = 1 ∨ nt = nb) := by
    intro r hr
    dsimp only [tChaboche] at hr
    rw [hh, hC, hg] at hr
    have k2 : Rep [n, nb, nt] (lead γ) fun i => γ.data [i.headD 0] := by
      refine ⟨_, rfl, ?_, fun i hi => ?_⟩
      · change bshape (γ.shape ++ [1]) _ = _
        rw [hγ]
        exact (fits_cons _ _ _ _).2 ⟨.inl rfl, (fits_cons _ _ _ _).2 ⟨.inr rfl, rfl⟩⟩
      · obtain ⟨l, j, k, rfl, hl, -, -⟩ := hi3 i hi
        change γ.data ((bidx (γ.shape ++ [1]) [l, j, k]).take γ.shape.length) = _
        rw [hγ]
        change γ.data [if n = 1 then 0 else l] = γ.data [l]
        congr 2
        split_ifs <;> omega
    have k3 : Is [n, nb, nt] (h : TE) h.data := ⟨h, rfl, hh, fun _ _ => rfl⟩
    have k4 : Is [nb, nt] (ep : TE) ep.data := ⟨ep, rfl, hep, fun _ _ => rfl⟩
    obtain ⟨x, hx, hxs, -⟩ := (Is.mul_right k2 k3).mul_left ((k4.map abs).rep.unsq n)
    rw [hx] at hr
    have e1 : lead (c : TE) = ((⟨[m, nt, 1], fun i => c.data (i.take 2)⟩ : Tensor) : TE) := by
      obtain ⟨sh, da⟩ := c
      obtain rfl : sh = [m, nt] := hc
      rfl
    have e2 : unsq (ep : TE) = ((⟨[1, nb, nt], fun i => ep.data i.tail⟩ : Tensor) : TE) := by
      obtain ⟨sh, da⟩ := ep
      obtain rfl : sh = [nb, nt] := hep
      rfl
    rw [e1, e2] at hr
    by_cases q : nt = 1 ∨ nt = nb ∨ nb = 1
    · have b1 : bshape [m, nt, 1] [1, nb, nt] = some [m, if nb = 1 then nt else nb, nt] := by
        have a1 : bshape [1] [nt] = some [nt] := (fits_cons _ _ _ _).2 ⟨.inr rfl, rfl⟩
        have a2 : bshape [nt, 1] [nb, nt] = some [if nb = 1 then nt else nb, nt] := by
          unfold bshape
          rw [a1]
          dsimp only
          split_ifs <;> first | rfl | (simp; omega) | omega
        unfold bshape
        rw [a2]
        dsimp only
        split_ifs <;> simp_all
      have e3 := map2_ok (· * ·) (⟨[m, nt, 1], fun i => c.data (i.take 2)⟩ : Tensor) (⟨[1, nb, nt], fun i => ep.data i.tail⟩ : Tensor) b1
      change reshape [n, nb, nt] (map2 (· - ·) (map2 (· * ·) _ _) _) = _ at hr
      rw [e3] at hr
      generalize hdd : (fun i => (⟨[m, nt, 1], fun i => c.data (i.take 2)⟩ : Tensor).data (bidx (⟨[m, nt, 1], fun i => c.data (i.take 2)⟩ : Tensor).shape i) *
        (⟨[1, nb, nt], fun i => ep.data i.tail⟩ : Tensor).data (bidx (⟨[1, nb, nt], fun i => ep.data i.tail⟩ : Tensor).shape i)) = dd at hr
      by_cases q' : m = n ∨ m = 1 ∨ n = 1
      · have b2 : bshape [m, if nb = 1 then nt else nb, nt] [n, nb, nt] = some [if m = 1 then n else m, if nb = 1 then nt else nb, nt] := by
          have a1 : bshape [nt] [nt] = some [nt] := bshape_self _
          have a2 : bshape [if nb = 1 then nt else nb, nt] [nb, nt] = some [if nb = 1 then nt else nb, nt] := by
            unfold bshape
            rw [a1]
            dsimp only
            split_ifs <;> first | rfl | (simp; omega) | omega
          unfold bshape
          rw [a2]
          dsimp only
          split_ifs <;> first | rfl | (simp; omega) | omega
        rw [← hxs] at b2
        have e4 := map2_ok (· - ·) (⟨[m, if nb = 1 then nt else nb, nt], dd⟩ : Tensor) x b2
        rw [e4] at hr
        have e5 := prod_of_reshape hr
        simp only [List.prod_cons, List.prod_nil, mul_one] at e5
        have hq : (if m = 1 then n else m) * (if nb = 1 then nt else nb) = n * nb := by
          refine Nat.eq_of_mul_eq_mul_right hnt ?_
          rw [mul_assoc, mul_assoc, ← e5]
        split_ifs at hq with h1 h2 h2
        · exact ⟨.inr h1, .inl (by subst h2; exact Nat.eq_of_mul_eq_mul_left hn hq)⟩
        · exact ⟨.inr h1, by omega⟩
        · subst h2
          rcases q' with rfl | h | rfl
          · exact ⟨.inl rfl, .inl (Nat.eq_of_mul_eq_mul_left hn hq)⟩
          · exact absurd h h1
          · have := Nat.eq_one_of_mul_eq_one_right (n := nt) (m := m) (by linarith)
            exact absurd this h1
        · have := Nat.eq_of_mul_eq_mul_right hnb hq
          exact ⟨.inl this, by omega⟩
      · have b2 : bshape [m, if nb = 1 then nt else nb, nt] x.shape = none := by
          rw [hxs]
          unfold bshape
          split
          · rfl
          · split_ifs <;> first | rfl | omega
        obtain ⟨er, e4⟩ := map2_none (· - ·) (⟨[m, if nb = 1 then nt else nb, nt], dd⟩ : Tensor) x b2
        rw [e4] at hr
        cases hr
    · have b1 : bshape [m, nt, 1] [1, nb, nt] = none := by
        have a2 : bshape [nt, 1] [nb, nt] = none := by
          unfold bshape
          split
          · rfl
          · split_ifs <;> first | rfl | omega
        unfold bshape
        rw [a2]
      obtain ⟨er, e3⟩ := map2_none (· * ·) (⟨[m, nt, 1], fun i => c.data (i.take 2)⟩ : Tensor) (⟨[1, nb, nt], fun i => ep.data i.tail⟩ : Tensor) b1
      change reshape [n, nb, nt] (map2 (· - ·) (map2 (· * ·) _ _) _) = _ at hr
      rw [e3] at hr
      cases hr
  refine ⟨⟨fun ⟨r, hr⟩ => bad r hr, fun hq => ?_⟩, fun r hr => ?_⟩
  · obtain ⟨r, hr, -⟩ := ok hq
    exact ⟨r, hr⟩
  · obtain ⟨r', hr', hs, hd⟩ := ok (bad r hr)
    obtain rfl : r = r' := Except.ok.inj (hr.symm.trans hr')
    exact ⟨hs, fun k hk j hj l hl => hd [l, j, k] (valid_cons.2 ⟨hl, valid_cons.2 ⟨hj, valid_cons.2 ⟨hk, List.Forall₂.nil⟩⟩⟩)⟩

/-- **C102.** `ArrheniusScaling` with `A` and `Q` of shape `(n,)`, `n` not 1, called with temperatures of `nb` tests: it raises unless `n = nb` or `nb = 1`;
with `n = nb` entry `l` uses the temperature of test `l`; with one test it has an entry for every backstress. -/
theorem C102_arrhenius {A Q T : Tensor} {n nb nt : ℕ} (AScale QScale scaling : ℝ → ℝ) (hA : A.shape = [n]) (hQ : Q.shape = [n]) (hT : T.shape = [nb, nt]) (hn : n ≠ 1) :
    (n ≠ nb → nb ≠ 1 → ∃ er, (tArrhenius A Q AScale QScale scaling).call T = .error er) ∧
    ((n = nb ∨ nb = 1) → ∃ c : Tensor, (tArrhenius A Q AScale QScale scaling).call T = (c : TE) ∧ c.shape = [n, nt] ∧
      ∀ l < n, ∀ k < nt, c.data [l, k] = scaling (AScale (A.data [l]) * Real.exp (-QScale (Q.data [l]) / T.data [if nb = 1 then 0 else l, k]))) := by
  have e1 : ∀ f, map f (A : TE) = ((⟨[n], fun i => f (A.data i)⟩ : Tensor) : TE) := fun f => by
    obtain ⟨sh, da⟩ := A
    obtain rfl : sh = [n] := hA
    rfl
  have e2 : -map QScale (Q : TE) = ((⟨[n], fun i => -QScale (Q.data i)⟩ : Tensor) : TE) := by
    obtain ⟨sh, da⟩ := Q
    obtain rfl : sh = [n] := hQ
    rfl
  have e3 : (T : TE) = ((⟨[nb, nt], T.data⟩ : Tensor) : TE) := by
    obtain ⟨sh, da⟩ := T
    obtain rfl : sh = [nb, nt] := hT
    rfl
  refine ⟨fun h1 h2 => ?_, fun h => ?_⟩
  · have b : bshape [n] [nb, nt] = none := by
      unfold bshape
      simp only [bshape]
      split_ifs <;> first | rfl | simp_all
    obtain ⟨er, e4⟩ := map2_none (· / ·) (⟨[n], fun i => -QScale (Q.data i)⟩ : Tensor) (⟨[nb, nt], T.data⟩ : Tensor) b
    refine ⟨er, ?_⟩
    change map scaling (map2 (· * ·) (map AScale (A : TE)) (map Real.exp (map2 (· / ·) (-map QScale (Q : TE)) (T : TE)))) = _
    rw [e1, e2, e3, e4]
    rfl
  · have b : bshape [n] [nb, nt] = some [n, nt] := by
      unfold bshape
      simp only [bshape]
      split_ifs <;> simp_all
    have b' : bshape [n] [n, nt] = some [n, nt] := (fits_cons _ _ _ _).2 ⟨.inl rfl, rfl⟩
    have e4 := map2_ok (· / ·) (⟨[n], fun i => -QScale (Q.data i)⟩ : Tensor) (⟨[nb, nt], T.data⟩ : Tensor) b
    refine ⟨⟨[n, nt], fun i => scaling (AScale (A.data (bidx [n] i)) * Real.exp (-QScale (Q.data (bidx [n] (bidx [n, nt] i))) / T.data (bidx [nb, nt] (bidx [n, nt] i))))⟩, ?_, rfl, fun l hl k hk => ?_⟩
    · change map scaling (map2 (· * ·) (map AScale (A : TE)) (map Real.exp (map2 (· / ·) (-map QScale (Q : TE)) (T : TE)))) = _
      rw [e1, e2, e3, e4]
      exact congrArg (map scaling) (map2_ok (· * ·) (⟨[n], fun i => AScale (A.data i)⟩ : Tensor)
        (⟨[n, nt], fun i => Real.exp (-QScale (Q.data (bidx [n] i)) / T.data (bidx [nb, nt] i))⟩ : Tensor) b')
    · have q : (if nt = 1 then 0 else k) = k := by split_ifs <;> omega
      simp only [bidx, if_neg hn, q]

/-- The standard material of `C101_batch`, with any parameter `C` for the backstresses -/
noncomputable abbrev standard (E N eta s0 R d g : Tensor) (C : TParam) : Tensor → Tensor → Tensor → Tensor → Except String TOut :=
  let cst := fun x : Tensor => tConstant x (fun a => a) (fun a => a)
  tInelastic (cst E) (tIsoKin ⟨cst N, cst eta, cst s0, tVoce (cst R) (cst d), tChaboche C (cst g)⟩)

private theorem bind_ok {α : Type} {x : TE} {f : Tensor → Except String α} {o : α} (h : TE.bind x f = .ok o) : ∃ a, x = .ok a ∧ f a = .ok o := by
  cases x with
  | error e => cases h
  | ok a => exact ⟨a, rfl, h⟩

private theorem withPair_ok {α : Type} {x : Except String (Tensor × Tensor)} {f : Tensor → Tensor → Except String α} {o : α} (h : withPair x f = .ok o) :
    ∃ a b, x = .ok (a, b) ∧ f a b = .ok o := by
  cases x with
  | error e => cases h
  | ok a => exact ⟨a.1, a.2, rfl, h⟩

private theorem history_ok {p : TIsoKin} {s h t T e : Tensor} {q : Tensor × Tensor} (H : (tIsoKin p).history_rate s h t T e = .ok q) :
    ∃ ep dep hk, p.flow s h T = .ok (ep, dep) ∧ sliceFrom p.iso.nhist h = .ok hk ∧ ∃ r : Tensor, p.kin.rate s hk t ep T e = .ok r := by
  dsimp only [tIsoKin] at H
  obtain ⟨ep, dep, h1, H⟩ := withPair_ok H
  obtain ⟨hi, h2, H⟩ := bind_ok H
  obtain ⟨hk, h3, H⟩ := bind_ok H
  obtain ⟨c, h4, H⟩ := bind_ok H
  obtain ⟨a, h5, h6⟩ := bind_ok h4
  obtain ⟨b, h7, h8⟩ := bind_ok h6
  exact ⟨ep, dep, hk, h1, h3, b, h7⟩

private theorem forward_ok {E : TParam} {f : TFlowRule} {t y e T : Tensor} {o : TOut} (H : tInelastic E f t y e T = .ok o) :
    ∃ s h q, sel 0 y = .ok s ∧ sliceFrom 1 y = .ok h ∧ f.history_rate s h t T e = .ok q := by
  dsimp only [tInelastic] at H
  obtain ⟨s, h1, H⟩ := bind_ok H
  obtain ⟨h, h2, H⟩ := bind_ok H
  obtain ⟨_, _, h3, H⟩ := withPair_ok H
  obtain ⟨a, b, h4, H⟩ := withPair_ok H
  exact ⟨s, h, (a, b), h1, h2, h4⟩

/-- **C102.** `forward` of the standard material for `nt` times, `nb` tests, `n` backstresses, with a parameter `C` that is, at the given temperatures, a tensor of shape `(nt, n)`: it
succeeds if and only if `nt` is 1 or `nb`, and then the entries for time `k` and test `b` are those of the model whose constants `C` are the entries for time `b` (with `nt = 1`: for the only time). -/
theorem C102_forward {E N eta s0 R d g t y e T c : Tensor} {C : TParam} {nb nt n : ℕ} (hE : E.shape = [nb]) (hN : N.shape = [nb]) (heta : eta.shape = [nb])
    (hs0 : s0.shape = [nb]) (hR : R.shape = [nb]) (hd : d.shape = [nb]) (hg : g.shape = [n])
    (ht : t.shape = [nb, nt]) (hy : y.shape = [1 + n + 1, nb, nt]) (he : e.shape = [nb, nt]) (hT : T.shape = [nb, nt])
    (hC : C.call T = (c : TE)) (hc : c.shape = [n, nt]) (hCs : C.pshape = [n]) (hn : 0 < n) (hnb : 0 < nb) (hnt : 0 < nt) :
    ((∃ o, standard E N eta s0 R d g C t y e T = .ok o) ↔ nt = 1 ∨ nt = nb) ∧
    ∀ o, standard E N eta s0 R d g C t y e T = .ok o → ∀ k < nt, ∀ b < nb,
      let out := inelastic (fun _ => E.data [b]) (isoKin (fun _ => N.data [b]) (fun _ => eta.data [b]) (fun _ => s0.data [b])
          (voce (fun _ => R.data [b]) (fun _ => d.data [b])) (chaboche (nback := n) (fun l _ => c.data [l.val, if nt = 1 then 0 else b]) (fun l _ => g.data [l.val])))
          (t.data [b, k]) (fun j => y.data [j.val, b, k]) (e.data [b, k]) (T.data [b, k])
      (∀ j : Fin (1 + n + 1), o.ydot.data [j.val, b, k] = out.ydot j) ∧ (∀ r c : Fin (1 + n + 1), o.J.data [c.val, r.val, b, k] = out.J r c) := by
  have kc : ∀ x : Tensor, x.shape = [nb] → ParamIs [nb, nt] Set.univ (tConstant x (fun a => a) (fun a => a)) fun i _ => x.data [i.headD 0] := fun x hx =>
    C101_constant (fun a => a) (fun a => a) ((C101_parameter_shapes nb [nt] x).2.1 hx)
  have kv : ∀ x : Tensor, x.shape = [n] → VecParamIs [nb, nt] Set.univ (tConstant x (fun a => a) (fun a => a)) fun i (j : Fin n) _ => x.data [j.val] := fun x hx =>
    (C101_constant_vector x (fun a => a) (fun a => a)).1 hx
  have fwd : (nt = 1 ∨ nt = nb) → VecParamIs [nb, nt] Set.univ (tConstant c (fun a => a) (fun a => a)) fun i (j : Fin n) _ => c.data [j.val, if nt = 1 then 0 else i.headD 0] := by
    intro h
    refine ⟨by simp [tConstant, hc], fun T τ _ => ⟨_, [nt], rfl, hc, by simp, (fits_cons _ _ _ _).2 ⟨h.symm, rfl⟩, fun i hi j => ?_⟩⟩
    obtain ⟨k, i, rfl, hk, hi'⟩ := valid_cons_iff.1 hi
    rfl
  have same : standard E N eta s0 R d g C t y e T = standard E N eta s0 R d g (tConstant c (fun a => a) (fun a => a)) t y e T := by
    have e1 : (tConstant c (fun a => a) (fun a => a)).call T = (c : TE) := rfl
    have e2 : (tConstant c (fun a => a) (fun a => a)).pshape = [n, nt] := hc
    simp only [standard, tInelastic, tIsoKin, tChaboche, hC, e1, hCs, e2, TIsoKin.flow, TIsoKin.diso, TIsoKin.dkin, TIsoKin.over, List.headD_cons]
  have bad : ∀ o, standard E N eta s0 R d g C t y e T = .ok o → nt = 1 ∨ nt = nb := by
    intro o ho
    obtain ⟨s, h, q, h1, h2, h3⟩ := forward_ok ho
    obtain ⟨ep, dep, hk, h4, h5, r, h6⟩ := history_ok h3
    have hy' : Is ((n + 1 + 1) :: [nb, nt]) (y : TE) y.data := ⟨y, rfl, by rw [hy, Nat.add_comm 1 n], fun _ _ => rfl⟩
    obtain ⟨s', e1, hs, -⟩ := hy'.sel 0 (by omega)
    obtain rfl : s = s' := Except.ok.inj (h1.symm.trans e1)
    have hy'' : Is ((1 + (1 + n)) :: [nb, nt]) (y : TE) y.data := ⟨y, rfl, by rw [hy, Nat.add_comm (1 + n)], fun _ _ => rfl⟩
    obtain ⟨h', e2, hh, -⟩ := hy''.sliceFrom 1
    obtain rfl : h = h' := Except.ok.inj (h2.symm.trans e2)
    have hh' : Is ((1 + n) :: [nb, nt]) (h : TE) h.data := ⟨h, rfl, hh, fun _ _ => rfl⟩
    obtain ⟨k', e3, hk3, -⟩ := hh'.sliceFrom 1
    obtain rfl : hk = k' := Except.ok.inj (h5.symm.trans e3)
    have hF := C101_iso_kin (kc N hN) (kc eta heta) (kc s0 hs0) (C101_voce (kc R hR) (kc d hd)) (C101_chaboche (kv g hg) (kv g hg))
    obtain ⟨f, df, e4, hf, -⟩ := hF.flow ⟨s, h, t, T, e, s.data, fun i j => h.data (j.val :: i), t.data, T.data, e.data, ⟨hs, fun _ _ => rfl⟩, ⟨hh, fun _ _ _ => rfl⟩,
      ⟨ht, fun _ _ => rfl⟩, ⟨⟨hT, fun _ _ => rfl⟩, fun _ _ => trivial⟩, ⟨he, fun _ _ => rfl⟩⟩
    have e5 := Except.ok.inj (h4.symm.trans e4)
    have hep : ep.shape = [nb, nt] := by
      rw [(Prod.mk.inj e5).1]
      exact hf.1
    exact (((C102_chaboche_rate (s := s) (t := t) (e := e) hn hnb hnt hC hc rfl hg hk3 hep).1).1 ⟨r, h6⟩).2
  have good := fun hq => C101_inelastic (kc E hE) (C101_iso_kin (kc N hN) (kc eta heta) (kc s0 hs0) (C101_voce (kc R hR) (kc d hd)) (C101_chaboche (fwd hq) (kv g hg)))
    t t.data y (fun i j => y.data (j.val :: i)) e e.data T T.data ⟨ht, fun _ _ => rfl⟩ ⟨hy, fun _ _ _ => rfl⟩ ⟨he, fun _ _ => rfl⟩ ⟨⟨hT, fun _ _ => rfl⟩, fun _ _ => trivial⟩
  refine ⟨⟨fun ⟨o, ho⟩ => bad o ho, fun hq => ?_⟩, fun o ho k hk b hb => ?_⟩
  · obtain ⟨o, ho, -⟩ := good hq
    exact ⟨o, same.trans ho⟩
  · obtain ⟨o', ho', h1, h2, -, -⟩ := good (bad o ho)
    obtain rfl : o = o' := Except.ok.inj (ho.symm.trans (same.trans ho'))
    have hv : Valid [nb, nt] [b, k] := valid_cons.2 ⟨hb, valid_cons.2 ⟨hk, List.Forall₂.nil⟩⟩
    exact ⟨fun j => h1.2 _ hv j, fun r c => h2.2 _ hv r c⟩

/-- **C102.** `forward` of the standard material with `ArrheniusScaling` for the constants `C` of `n ≥ 2` backstresses succeeds if and only if there is one test or as many tests as
backstresses, and the block has one time or as many times as tests. Then test `b` gets, for backstress `l`, the temperature of test `l` at time `b` (of the only test, at the only time, if there is only
one): the right one only for one test and one time. -/
theorem C102_arrhenius_forward {E N eta s0 R d g t y e T A Q : Tensor} {nb nt n : ℕ} (AScale QScale scaling : ℝ → ℝ) (hE : E.shape = [nb]) (hN : N.shape = [nb]) (heta : eta.shape = [nb])
    (hs0 : s0.shape = [nb]) (hR : R.shape = [nb]) (hd : d.shape = [nb]) (hg : g.shape = [n]) (hA : A.shape = [n]) (hQ : Q.shape = [n])
    (ht : t.shape = [nb, nt]) (hy : y.shape = [1 + n + 1, nb, nt]) (he : e.shape = [nb, nt]) (hT : T.shape = [nb, nt]) (hn : 2 ≤ n) (hnb : 0 < nb) (hnt : 0 < nt) :
    let M := standard E N eta s0 R d g (tArrhenius A Q AScale QScale scaling)
    ((∃ o, M t y e T = .ok o) ↔ (n = nb ∨ nb = 1) ∧ (nt = 1 ∨ nt = nb)) ∧
    ∀ o, M t y e T = .ok o → ∀ k < nt, ∀ b < nb,
      let out := inelastic (fun _ => E.data [b]) (isoKin (fun _ => N.data [b]) (fun _ => eta.data [b]) (fun _ => s0.data [b])
          (voce (fun _ => R.data [b]) (fun _ => d.data [b])) (chaboche (nback := n)
            (fun l _ => scaling (AScale (A.data [l.val]) * Real.exp (-QScale (Q.data [l.val]) / T.data [if nb = 1 then 0 else l.val, if nt = 1 then 0 else b])))
            (fun l _ => g.data [l.val])))
          (t.data [b, k]) (fun j => y.data [j.val, b, k]) (e.data [b, k]) (T.data [b, k])
      (∀ j : Fin (1 + n + 1), o.ydot.data [j.val, b, k] = out.ydot j) ∧ (∀ r c : Fin (1 + n + 1), o.J.data [c.val, r.val, b, k] = out.J r c) := by
  intro M
  have call : ∀ o, M t y e T = .ok o → n = nb ∨ nb = 1 := by
    intro o ho
    by_contra hne
    push Not at hne
    obtain ⟨er, hc⟩ := (C102_arrhenius AScale QScale scaling hA hQ hT (by omega)).1 hne.1 hne.2
    obtain ⟨s, h, q, -, -, h3⟩ := forward_ok ho
    obtain ⟨ep, dep, hk, -, -, r, h6⟩ := history_ok h3
    dsimp only [tChaboche] at h6
    rw [hc] at h6
    cases h6
  have main := fun (hq : n = nb ∨ nb = 1) => (C102_arrhenius AScale QScale scaling hA hQ hT (by omega)).2 hq
  have fw := fun (c : Tensor) (h1 : (tArrhenius A Q AScale QScale scaling).call T = (c : TE)) (h2 : c.shape = [n, nt]) =>
    C102_forward (C := tArrhenius A Q AScale QScale scaling) hE hN heta hs0 hR hd hg ht hy he hT h1 h2 hA (by omega) hnb hnt
  refine ⟨⟨fun ⟨o, ho⟩ => ⟨call o ho, ?_⟩, fun ⟨h1, h2⟩ => ?_⟩, fun o ho k hk b hb => ?_⟩
  · obtain ⟨c, h1, h2, -⟩ := main (call o ho)
    exact (fw c h1 h2).1.1 ⟨o, ho⟩
  · obtain ⟨c, h3, h4, -⟩ := main h1
    exact (fw c h3 h4).1.2 h2
  · obtain ⟨c, h1, h2, h3⟩ := main (call o ho)
    have hq := (fw c h1 h2).1.1 ⟨o, ho⟩
    have := (fw c h1 h2).2 o ho k hk b hb
    have hl : ∀ l : Fin n, c.data [l.val, if nt = 1 then 0 else b] =
        scaling (AScale (A.data [l.val]) * Real.exp (-QScale (Q.data [l.val]) / T.data [if nb = 1 then 0 else l.val, if nt = 1 then 0 else b])) :=
      fun l => h3 l.val l.isLt _ (by split_ifs <;> omega)
    simp only [hl] at this
    exact this

/-- **C102.** A batch in which the temperature of one test changes the result of another: two tests, two backstresses, one time (the default block size). The two calls have the same inputs for the
first test, and differ in its results. -/
theorem C102_couples : ∃ (E N eta s0 R d g A Q t y e T T' : Tensor) (o o' : TOut),
    T.data [0, 0] = T'.data [0, 0] ∧
    standard E N eta s0 R d g (tArrhenius A Q (fun x => x) (fun x => x) fun x => x) t y e T = .ok o ∧
    standard E N eta s0 R d g (tArrhenius A Q (fun x => x) (fun x => x) fun x => x) t y e T' = .ok o' ∧
    o.ydot.data [3, 0, 0] ≠ o'.ydot.data [3, 0, 0] := by
  let x : Tensor := ⟨[2], fun _ => 1⟩
  let p : Tensor := ⟨[2, 1], fun _ => 1⟩
  let y : Tensor := ⟨[1 + 2 + 1, 2, 1], fun i => if i.headD 0 = 0 then 3 else 0⟩
  let p' : Tensor := ⟨[2, 1], fun i => if i.headD 0 = 0 then 1 else 1 / 2⟩
  have key := fun (T : Tensor) (hT : T.shape = [2, 1]) => C102_arrhenius_forward (E := x) (N := x) (eta := x) (s0 := x) (R := x) (d := x) (g := x) (A := x) (Q := x) (t := p) (y := y) (e := p) (T := T)
    (fun x => x) (fun x => x) (fun x => x) rfl rfl rfl rfl rfl rfl rfl rfl rfl rfl rfl rfl hT le_rfl (by norm_num) (by norm_num)
  obtain ⟨o, ho⟩ := (key p rfl).1.2 ⟨.inl rfl, .inl rfl⟩
  obtain ⟨o', ho'⟩ := (key p' rfl).1.2 ⟨.inl rfl, .inl rfl⟩
  refine ⟨x, x, x, x, x, x, x, x, x, p, y, p, p, p', o, o', by simp [p, p'], ho, ho', ?_⟩
  have h1 := ((key p rfl).2 o ho 0 (by norm_num) 0 (by norm_num)).1 (Fin.natAdd 1 (1 : Fin 2)).succ
  have h2 := ((key p' rfl).2 o' ho' 0 (by norm_num) 0 (by norm_num)).1 (Fin.natAdd 1 (1 : Fin 2)).succ
  have e3 : ((Fin.natAdd 1 (1 : Fin 2)).succ : Fin (1 + 2 + 1)).val = 3 := rfl
  rw [e3] at h1 h2
  rw [h1, h2]
  dsimp only [inelastic, isoKin]
  rw [Fin.cons_succ, Fin.cons_succ, Fin.append_right, Fin.append_right]
  simp [chaboche, isoKinFlow, voce, isoPart, kinPart, x, y, p, p', macaulay]
  norm_num
  exact ⟨by norm_num [heaviside, sgn, Real.sign_of_pos], by norm_num [sgn, Real.sign_of_pos]⟩

private theorem map2_inv {o : ℝ → ℝ → ℝ} {x y : TE} {r : Tensor} (h : map2 o x y = .ok r) : ∃ a b : Tensor, x = .ok a ∧ y = .ok b ∧ bshape a.shape b.shape = some r.shape := by
  obtain ⟨a, ha, h⟩ := bind_ok h
  obtain ⟨b, hb', h⟩ := bind_ok h
  cases hb : bshape a.shape b.shape with
  | none =>
    simp only [hb] at h
    cases h
  | some S =>
    simp only [hb] at h
    cases h
    exact ⟨a, b, ha, hb', hb⟩

/-- **C102.** `ShearModulusScaling` with `A` of shape `(n,)`: raises unless `n` is 1 or the number of tests, or there is one test. -/
theorem C102_shear {A T m : Tensor} {mu : TParam} {n nb nt : ℕ} (AScale scaling : ℝ → ℝ) (hA : A.shape = [n]) (hmu : mu.call T = (m : TE)) (hm : m.shape = [nb, nt])
    (h1 : n ≠ 1) (h2 : n ≠ nb) (h3 : nb ≠ 1) : ∃ er, (tShear A mu AScale scaling).call T = .error er := by
  cases h : (tShear A mu AScale scaling).call T with
  | error er => exact ⟨er, rfl⟩
  | ok r =>
    obtain ⟨v, hv, -⟩ := bind_ok h
    obtain ⟨a, b, ha, hb, hs⟩ := map2_inv (show map2 (· * ·) (map AScale (A : TE)) (mu.call T) = .ok v from hv)
    rw [hmu] at hb
    obtain rfl := Except.ok.inj hb
    have ha' : a.shape = [n] := by
      obtain rfl := Except.ok.inj ha
      exact hA
    rw [ha', hm] at hs
    unfold bshape at hs
    simp [bshape, h1, h2, h3] at hs

/-- **C102.** `FAKinematicHardeningModel` without the keywords `b` and `r`: if the `shape` of `C` is `(p,)`, `history_rate` raises for `nb` tests unless `p` is 1 or `nb`, or there is one test. -/
theorem C102_fa_default {C g : TParam} {s h t ep T e : Tensor} {p nb nt : ℕ} (hC : C.pshape = [p]) (hh : h.shape = [1, nb, nt]) (h1 : p ≠ 1) (h2 : p ≠ nb) (h3 : nb ≠ 1) :
    ∃ er, (tFaDefault C g).rate s h t ep T e = .error er := by
  cases hr : (tFaDefault C g).rate s h t ep T e with
  | error er => exact ⟨er, rfl⟩
  | ok r =>
    exfalso
    obtain ⟨v, hv, -⟩ := bind_ok hr
    obtain ⟨-, x, -, hx, -⟩ := map2_inv hv
    obtain ⟨x', -, hx', -, -⟩ := map2_inv hx
    obtain ⟨-, w, -, hw, -⟩ := map2_inv hx'
    obtain ⟨a, b, ha, hb, hs⟩ := map2_inv hw
    have ha' : a.shape = [nb, nt] := by
      obtain ⟨k, hk, ha⟩ := bind_ok ha
      obtain ⟨sh, da⟩ := h
      obtain rfl : sh = [1, nb, nt] := hh
      obtain rfl := Except.ok.inj hk
      obtain rfl := Except.ok.inj ha
      rfl
    have hb' : b.shape = [p] := by
      obtain ⟨c, o, hc, ho, hbs⟩ := map2_inv hb
      obtain rfl := Except.ok.inj hc
      obtain rfl := Except.ok.inj ho
      change bshape C.pshape [] = _ at hbs
      rw [hC] at hbs
      exact (Option.some.inj hbs).symm
    rw [ha', hb'] at hs
    unfold bshape at hs
    rw [bshape_nil_right] at hs
    simp [h1, h2.symm, h3] at hs

/-- **C102.** This happens for `PiecewiseScaling` with different values for each of `nb` tests at `p` temperatures, for which the call of `C` itself works (C101): its `shape` property drops the number
of tests, not the number of temperatures. -/
theorem C102_piecewise_shape {ctl vals h s t ep T e : Tensor} {G : TParam} {p nb nt : ℕ} (scaleFn scaling : ℝ → ℝ)
    (hv : vals.shape = [p, nb]) (hh : h.shape = [1, nb, nt]) (h1 : p ≠ 1) (h2 : p ≠ nb) (h3 : nb ≠ 1) :
    (tPiecewise ctl vals scaleFn scaling).pshape = [p] ∧ ∃ er, (tFaDefault (tPiecewise ctl vals scaleFn scaling) G).rate s h t ep T e = .error er := by
  have : (tPiecewise ctl vals scaleFn scaling).pshape = [p] := by
    change vals.shape.dropLast = _
    rw [hv]
    rfl
  exact ⟨this, C102_fa_default this hh h1 h2 h3⟩

/-- **C102.** One value of `g` for all of `n ≥ 2` backstresses, of shape `(1,)`: `history_rate` of `ChabocheHardeningModel` itself works, its derivative raises. -/
theorem C102_single_g {C g : TParam} {γ s h t ep T e : Tensor} {n nb nt : ℕ} (hC : C.pshape = [n]) (hg : g.call T = (γ : TE)) (hγ : γ.shape = [1]) (hh : h.shape = [n, nb, nt]) (hep : ep.shape = [nb, nt])
    (hn : 2 ≤ n) (hnb : 0 < nb) (hnt : 0 < nt) :
    (∀ c : Tensor, C.call T = (c : TE) → c.shape = [n] → ∃ r : Tensor, (tChaboche C g).rate s h t ep T e = (r : TE)) ∧
    ∃ er, (tChaboche C g).drate_dh s h t ep T e = .error er := by
  have k4 : Is [nb, nt] (ep : TE) ep.data := ⟨ep, rfl, hep, fun _ _ => rfl⟩
  have k3 : Is [n, nb, nt] (h : TE) h.data := ⟨h, rfl, hh, fun _ _ => rfl⟩
  have hl : lead (γ : TE) = ((⟨[1, 1], fun i => γ.data (i.take 1)⟩ : Tensor) : TE) := by
    obtain ⟨sh, da⟩ := γ
    obtain rfl : sh = [1] := hγ
    rfl
  have fits : ∀ m, Rep [m, nb, nt] (lead (γ : TE)) fun i => γ.data ((bidx [1, 1] i).take 1) := fun m => by
    rw [hl]
    exact ⟨_, rfl, (fits_cons _ _ _ _).2 ⟨.inr rfl, (fits_cons _ _ _ _).2 ⟨.inr rfl, rfl⟩⟩, fun i _ => rfl⟩
  refine ⟨fun c hc hcs => ?_, ?_⟩
  · have k1 : Rep [n, nb, nt] (lead c) fun i => c.data ((bidx [n, 1] i).take 1) := by
      obtain ⟨sh, da⟩ := c
      obtain rfl : sh = [n] := hcs
      exact ⟨_, rfl, (fits_cons _ _ _ _).2 ⟨.inl rfl, (fits_cons _ _ _ _).2 ⟨.inr rfl, rfl⟩⟩, fun i _ => rfl⟩
    have k5 := Is.sub_right (k1.mul (k4.rep.unsq n)) ((Is.mul_right (fits n) k3).mul_left ((k4.map abs).rep.unsq n))
    dsimp only [tChaboche]
    rw [hh, hc, hg]
    obtain ⟨r, hr, -⟩ := k5.reshape
    exact ⟨r, hr⟩
  · have k5 := (Is.mul_right (fits 1).neg (k4.map abs).unsq).diagEmbed
    dsimp only [tChaboche]
    rw [hg]
    obtain ⟨x, hx, hxs, -⟩ := k5
    rw [hx]
    refine ⟨"RuntimeError: shape is invalid for input", if_neg ?_⟩
    rw [hxs, hh, hC]
    simp only [List.headD_cons, List.prod_cons, List.prod_nil, mul_one, one_mul]
    intro hq
    have hp : 0 < nb * nt := Nat.mul_pos hnb hnt
    rw [← mul_assoc] at hq
    have := Nat.eq_of_mul_eq_mul_right hp (hq.trans (one_mul _).symm)
    nlinarith

/-- The hypotheses of these theorems are met: `C102_couples` is a case of the first ones; here three control temperatures and two tests, and `g` of shape `(1,)` with two backstresses. -/
example : ∃ er, (tFaDefault (tPiecewise ⟨[3], fun i => i.headD 0⟩ ⟨[3, 2], fun _ => 1⟩ (fun x => x) fun x => x) (tConstant ⟨[2], fun _ => 1⟩ (fun x => x) fun x => x)).rate
    ⟨[2, 1], fun _ => 1⟩ ⟨[1, 2, 1], fun _ => 1⟩ ⟨[2, 1], fun _ => 1⟩ ⟨[2, 1], fun _ => 1⟩ ⟨[2, 1], fun _ => 1⟩ ⟨[2, 1], fun _ => 1⟩ = .error er :=
  (C102_piecewise_shape (p := 3) (nb := 2) (nt := 1) _ _ rfl rfl (by norm_num) (by norm_num) (by norm_num)).2

example : ∃ er, (tChaboche (tConstant ⟨[2], fun _ => 1⟩ (fun x => x) fun x => x) (tConstant ⟨[1], fun _ => 1⟩ (fun x => x) fun x => x)).drate_dh
    ⟨[2, 1], fun _ => 1⟩ ⟨[2, 2, 1], fun _ => 1⟩ ⟨[2, 1], fun _ => 1⟩ ⟨[2, 1], fun _ => 1⟩ ⟨[2, 1], fun _ => 1⟩ ⟨[2, 1], fun _ => 1⟩ = .error er :=
  (C102_single_g (n := 2) (nb := 2) (nt := 1) rfl rfl rfl rfl rfl le_rfl (by norm_num) (by norm_num)).2

end Pyoptmat.Props
