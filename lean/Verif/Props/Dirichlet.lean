import Verif.Model.Dirichlet
import Verif.Lemmas.XR
import Verif.Spec.XR
import Mathlib.Analysis.SpecialFunctions.Integrals.Basic

/-!
# C33: Dirichlet elements
-/

namespace GW.Dirichlet
open PyDict (Dict get?)
open GW.Tools (Err)
open XR (expR)

/-- The conditional density of one element of the uniform distribution on the simplex, `c` elements still to come after it and `S` the
sum of the earlier ones: `c (1-S-v)^(c-1) / (1-S)^c`. -/
noncomputable def conditional (c : Nat) (S v : ℝ) : ℝ := c * (1 - S - v) ^ (c - 1) / (1 - S) ^ c

/-- **C33 (density).**  For an order below `N - 1` and earlier elements summing to less than one, `log_prob` is a proper log density and
its exponential is the conditional density, at every point of `[0, 1-S]` including both ends; outside it is zero when arguments are
validated. -/
theorem C33_log_prob (N n : Nat) (hn : n + 1 < N) (S v : ℝ) (hS : S < 1) :
    (0 ≤ v → v ≤ 1 - S → ∀ b, XR.IsLog (logProb b n N S v) ∧ expR (logProb b n N S v) = conditional (N - n - 1) S v) ∧
    (¬ (0 ≤ v ∧ v ≤ 1 - S) → logProb true n N S v = XR.ninf) := by
  refine ⟨?_, fun h => by simp only [logProb]; rw [if_pos ⟨trivial, h⟩]⟩
  intro h0 h1 b
  obtain ⟨c, hc⟩ : ∃ c : Nat, N - n - 1 = c + 1 := ⟨N - n - 2, by omega⟩
  have hcr : (N : ℝ) - n - 1 = c + 1 := by
    have : N = n + c + 2 := by omega
    rw [this]; push_cast; ring
  have hm : 0 < 1 - S := by linarith
  have e : logProb b n N S v = logProbRaw n N S v := by
    simp only [logProb]; rw [if_neg]; rintro ⟨_, h⟩; exact h ⟨h0, h1⟩
  rw [e]
  unfold logProbRaw
  simp only [hcr, add_sub_cancel_right]
  have hnorm : xlog1py ((c : ℝ) + 1) (XR.fin (-S)) - XR.log (XR.fin ((c : ℝ) + 1)) =
      XR.fin ((c + 1) * Real.log (1 - S) - Real.log (c + 1)) := by
    unfold xlog1py XR.log1p
    have hne : (c : ℝ) + 1 ≠ 0 := by positivity
    have hp : (0 : ℝ) < c + 1 := by positivity
    rw [if_neg (by rintro ⟨h, _⟩; exact hne h)]
    have : (XR.fin 1 + XR.fin (-S)) = XR.fin (1 - S) := by show XR.fin _ = XR.fin _; congr 1
    rw [this]
    simp only [XR.log, if_pos hm, if_pos hp]
    rfl
  rw [hnorm, conditional, hc]
  simp only [Nat.add_sub_cancel, Nat.cast_add, Nat.cast_one]
  have hexp : Real.exp ((c + 1) * Real.log (1 - S) - Real.log (c + 1)) = (1 - S) ^ (c + 1) / (c + 1) := by
    rw [Real.exp_sub, Real.exp_log (by positivity)]
    congr 1
    rw [show ((c : ℝ) + 1) * Real.log (1 - S) = ((c + 1 : ℕ) : ℝ) * Real.log (1 - S) by push_cast; ring, Real.exp_nat_mul,
      Real.exp_log hm]
  have hunn : ∀ x : XR, XR.IsLog x → XR.IsLog (x - XR.fin ((c + 1) * Real.log (1 - S) - Real.log (c + 1))) ∧
      expR (x - XR.fin ((c + 1) * Real.log (1 - S) - Real.log (c + 1))) = expR x * (c + 1) / (1 - S) ^ (c + 1) := by
    intro x hx
    rcases hx.cases with rfl | ⟨a, rfl⟩
    · refine ⟨XR.isLog_ninf, ?_⟩
      have : XR.ninf - XR.fin ((c + 1) * Real.log (1 - S) - Real.log (c + 1)) = XR.ninf := rfl
      rw [this]; simp [expR]
    · have : XR.fin a - XR.fin ((c + 1) * Real.log (1 - S) - Real.log (c + 1)) =
          XR.fin (a - ((c + 1) * Real.log (1 - S) - Real.log (c + 1))) := rfl
      rw [this]
      refine ⟨XR.isLog_fin _, ?_⟩
      simp only [expR]
      rw [Real.exp_sub, hexp]
      field_simp
  have hx : XR.IsLog (xlog1py (c : ℝ) (XR.fin (-S - v))) ∧ expR (xlog1py (c : ℝ) (XR.fin (-S - v))) = (1 - S - v) ^ c := by
    unfold xlog1py XR.log1p
    have h1S : (XR.fin 1 + XR.fin (-S - v)) = XR.fin (1 - S - v) := by
      show XR.fin _ = XR.fin _; congr 1; ring
    by_cases hc0 : c = 0
    · subst hc0
      rw [if_pos ⟨by simp, by simp⟩]
      exact ⟨XR.isLog_fin 0, by show Real.exp 0 = _; simp⟩
    · have hcr0 : (c : ℝ) ≠ 0 := by exact_mod_cast hc0
      have hcpos : (0 : ℝ) < c := by positivity
      rw [if_neg (by rintro ⟨h, _⟩; exact hcr0 h), h1S]
      rcases (by linarith : (0 : ℝ) ≤ 1 - S - v).eq_or_lt with hz | hz
      · rw [← hz]
        have : XR.fin (c : ℝ) * XR.log (XR.fin 0) = XR.ninf := by
          have : XR.log (XR.fin 0) = XR.ninf := by simp [XR.log]
          rw [this]
          show XR.neg (XR.mulInf (c : ℝ)) = _
          simp [XR.mulInf, hcpos, XR.neg]
        rw [this]
        exact ⟨XR.isLog_ninf, by simp [expR, hc0]⟩
      · have : XR.fin (c : ℝ) * XR.log (XR.fin (1 - S - v)) = XR.fin (c * Real.log (1 - S - v)) := by
          simp only [XR.log, if_pos hz]; rfl
        rw [this]
        refine ⟨XR.isLog_fin _, ?_⟩
        simp only [expR]
        rw [Real.exp_nat_mul, Real.exp_log hz]
  obtain ⟨i1, i2⟩ := hunn _ hx.1
  refine ⟨i1, ?_⟩
  rw [i2, hx.2]
  ring

/-- **C33 (cdf and normalisation).**  The conditional density integrates from `0` to `v` to `1 - ((1-S-v)/(1-S))^c`; over the whole
interval `[0, 1-S]` it integrates to one. -/
theorem C33_normalised (c : Nat) (hc : 1 ≤ c) (S : ℝ) (hS : S < 1) :
    (∀ v, ∫ t in (0 : ℝ)..v, conditional c S t = 1 - ((1 - S - v) / (1 - S)) ^ c) ∧
    ∫ t in (0 : ℝ)..(1 - S), conditional c S t = 1 := by
  have hm : (0 : ℝ) < 1 - S := by linarith
  have h : ∀ v, ∫ t in (0 : ℝ)..v, conditional c S t = 1 - ((1 - S - v) / (1 - S)) ^ c := by
    intro v
    obtain ⟨k, rfl⟩ : ∃ k, c = k + 1 := ⟨c - 1, by omega⟩
    have hd : ∀ t ∈ Set.uIcc (0 : ℝ) v, HasDerivAt (fun t => -((1 - S - t) / (1 - S)) ^ (k + 1)) (conditional (k + 1) S t) t := by
      intro t _
      have h1 : HasDerivAt (fun t : ℝ => (1 - S - t) / (1 - S)) (-1 / (1 - S)) t := by
        have := ((hasDerivAt_id t).const_sub (1 - S)).div_const (1 - S)
        exact this
      have h2 := (h1.fun_pow (k + 1)).fun_neg
      refine h2.congr_deriv ?_
      unfold conditional
      rw [show k + 1 - 1 = k from rfl, div_pow, pow_succ (1 - S) k]
      field_simp
    rw [intervalIntegral.integral_eq_sub_of_hasDerivAt hd]
    · simp only [sub_zero]
      rw [div_self hm.ne', one_pow]; ring
    · apply Continuous.intervalIntegrable
      unfold conditional
      fun_prop
  refine ⟨h, ?_⟩
  rw [h]
  simp only [sub_self, zero_div]
  rw [zero_pow (by omega)]; ring

/-- **C33 (sampling).**  For every uniform number the sample lies in the support, and the cdf of the conditional density at the sample is
`1 - u`: sampling is the inverse cdf applied to the (also uniform) number `1 - u`. -/
theorem C33_sample (N n : Nat) (hn : n + 1 < N) (S u : ℝ) (hS : S < 1) (h0 : 0 ≤ u) (h1 : u ≤ 1) :
    0 ≤ sample n N S u ∧ sample n N S u ≤ 1 - S ∧
    ∫ t in (0 : ℝ)..(sample n N S u), conditional (N - n - 1) S t = 1 - u := by
  obtain ⟨c, hc, hc1⟩ : ∃ c : Nat, N - n - 1 = c ∧ 1 ≤ c := ⟨N - n - 1, rfl, by omega⟩
  have hcr : (N : ℝ) - n - 1 = c := by
    have : N = n + c + 1 := by omega
    rw [this]; push_cast; ring
  have hcpos : (0 : ℝ) < c := by exact_mod_cast hc1
  have hm : (0 : ℝ) < 1 - S := by linarith
  unfold sample
  rw [hcr, hc]
  have hp0 : 0 ≤ u ^ (1 / (c : ℝ)) := Real.rpow_nonneg h0 _
  have hp1 : u ^ (1 / (c : ℝ)) ≤ 1 := Real.rpow_le_one h0 h1 (by positivity)
  refine ⟨mul_nonneg hm.le (by linarith), by nlinarith, ?_⟩
  rw [(C33_normalised c hc1 S hS).1]
  congr 1
  have : (1 - S - (1 - S) * (1 - u ^ (1 / (c : ℝ)))) / (1 - S) = u ^ (1 / (c : ℝ)) := by
    field_simp; ring
  rw [this, ← Real.rpow_natCast, ← Real.rpow_mul h0, one_div, inv_mul_cancel₀ hcpos.ne', Real.rpow_one]

/-- **C33 (the product is constant).**  For a point of the simplex with coordinates `x 0, …, x (N-2)` (all but the last, their sum at most
one, that of all but one of them less than one), the product of the conditional densities of the `N - 1` free elements is `(N-1)!`,
the density of the uniform distribution. -/
theorem C33_product_constant (N : Nat) (hN : 2 ≤ N) (x : Nat → ℝ) (h0 : ∀ i, 0 ≤ x i) (hlt : ∑ i ∈ Finset.range (N - 2), x i < 1)
    (hle : ∑ i ∈ Finset.range (N - 1), x i ≤ 1) :
    ∏ n ∈ Finset.range (N - 1), expR (logProb true n N (∑ i ∈ Finset.range n, x i) (x n)) = (N - 1).factorial := by
  have hmono : ∀ a b, a ≤ b → ∑ i ∈ Finset.range a, x i ≤ ∑ i ∈ Finset.range b, x i := fun a b hab =>
    Finset.sum_le_sum_of_subset_of_nonneg (Finset.range_mono hab) (fun i _ _ => h0 i)
  have hval : ∀ n ∈ Finset.range (N - 1), expR (logProb true n N (∑ i ∈ Finset.range n, x i) (x n)) =
      conditional (N - n - 1) (∑ i ∈ Finset.range n, x i) (x n) := by
    intro n hn
    rw [Finset.mem_range] at hn
    have hS : ∑ i ∈ Finset.range n, x i < 1 := (hmono n (N - 2) (by omega)).trans_lt hlt
    have hx : x n ≤ 1 - ∑ i ∈ Finset.range n, x i := by
      have := hmono (n + 1) (N - 1) (by omega)
      rw [Finset.sum_range_succ] at this
      linarith
    exact (((C33_log_prob N n (by omega) _ (x n) hS).1 (h0 n) hx) true).2
  rw [Finset.prod_congr rfl hval]
  have key : ∀ k, k ≤ N - 1 → (∏ n ∈ Finset.range k, conditional (N - n - 1) (∑ i ∈ Finset.range n, x i) (x n)) * (N - 1 - k).factorial =
      (N - 1).factorial * (1 - ∑ i ∈ Finset.range k, x i) ^ (N - 1 - k) := by
    intro k
    induction k with
    | zero => intro _; simp
    | succ k ih =>
      intro hk
      have ih' := ih (by omega)
      obtain ⟨c, hc⟩ : ∃ c, N - 1 - k = c + 1 := ⟨N - 1 - k - 1, by omega⟩
      have hc1 : N - 1 - (k + 1) = c := by omega
      have hc2 : N - k - 1 = c + 1 := by omega
      have hS : ∑ i ∈ Finset.range k, x i < 1 := (hmono k (N - 2) (by omega)).trans_lt hlt
      have hm : (0 : ℝ) < 1 - ∑ i ∈ Finset.range k, x i := by linarith
      rw [hc, Nat.factorial_succ] at ih'
      rw [Finset.prod_range_succ, hc1, hc2, Finset.sum_range_succ, conditional, Nat.add_sub_cancel]
      push_cast at ih' ⊢
      have : (∏ n ∈ Finset.range k, conditional (N - n - 1) (∑ i ∈ Finset.range n, x i) (x n)) * (c.factorial : ℝ) =
          ((N - 1).factorial : ℝ) * (1 - ∑ i ∈ Finset.range k, x i) ^ (c + 1) / (c + 1) := by
        rw [eq_div_iff (by positivity)]; linarith
      calc _ = ((∏ n ∈ Finset.range k, conditional (N - n - 1) (∑ i ∈ Finset.range n, x i) (x n)) * (c.factorial : ℝ)) *
            (((c : ℝ) + 1) * (1 - ∑ i ∈ Finset.range k, x i - x k) ^ c / (1 - ∑ i ∈ Finset.range k, x i) ^ (c + 1)) := by ring
        _ = _ := by
          rw [this, ← sub_sub]
          field_simp
  have := key (N - 1) le_rfl
  simpa using this

theorem foldl_add_eq (l : List ℝ) (a : ℝ) : l.foldl (· + ·) a = a + l.sum := by
  induction l generalizing a with
  | nil => simp
  | cons b l ih => rw [List.foldl_cons, ih, List.sum_cons]; ring

theorem mapM_get (kwargs : Dict String ℝ) (x : Nat → ℝ) (n : Nat)
    (h : ∀ i < n, get? kwargs ("concentration" ++ toString i) = some (x i)) :
    (List.range n).mapM (fun i => get? kwargs ("concentration" ++ toString i)) = some ((List.range n).map x) := by
  have : ∀ l : List Nat, (∀ i ∈ l, i < n) →
      l.mapM (fun i => get? kwargs ("concentration" ++ toString i)) = some (l.map x) := by
    intro l
    induction l with
    | nil => intro _; rfl
    | cons a l ih =>
      intro hl
      rw [List.mapM_cons, h a (hl a (by simp)), ih (fun i hi => hl i (List.mem_cons_of_mem _ hi))]
      rfl
  exact this _ (fun i hi => List.mem_range.1 hi)

theorem mapM_get_none (kwargs : Dict String ℝ) (n i : Nat) (hi : i < n)
    (h : get? kwargs ("concentration" ++ toString i) = none) :
    (List.range n).mapM (fun i => get? kwargs ("concentration" ++ toString i)) = none := by
  have : ∀ l : List Nat, i ∈ l → l.mapM (fun i => get? kwargs ("concentration" ++ toString i)) = none := by
    intro l
    induction l with
    | nil => simp
    | cons a l ih =>
      intro hl
      rw [List.mapM_cons]
      rcases List.mem_cons.1 hl with rfl | hl
      · rw [h]; rfl
      · rw [ih hl]
        cases get? kwargs ("concentration" ++ toString a) <;> rfl
  exact this _ (List.mem_range.2 hi)

/-- **C33 (construction).**  With all earlier elements given, an order below `N - 1` gives the element with their sum, and order `N - 1` gives
the point mass at one minus their sum, so that all `N` elements sum to exactly one. -/
theorem C33_construction (N n : Nat) (hN : 2 ≤ N) (kwargs : Dict String ℝ) (x : Nat → ℝ)
    (h : ∀ i < n, get? kwargs ("concentration" ++ toString i) = some (x i)) :
    (n + 1 < N → dirichletElement n N kwargs = .ok (.element n N (∑ i ∈ Finset.range n, x i))) ∧
    (n + 1 = N → ∃ v, dirichletElement n N kwargs = .ok (.delta v) ∧ ∑ i ∈ Finset.range n, x i + v = 1) := by
  have hsum : ((List.range n).map x).foldl (· + ·) 0 = ∑ i ∈ Finset.range n, x i := by
    rw [foldl_add_eq, zero_add, Finset.sum_list_map_count]
    rw [List.toFinset_range]
    apply Finset.sum_congr rfl
    intro i hi
    rw [List.count_eq_one_of_mem List.nodup_range (List.mem_range.2 (Finset.mem_range.1 hi)), one_smul]
  have hm := mapM_get kwargs x n h
  refine ⟨?_, ?_⟩
  · intro hn
    unfold dirichletElement
    rw [if_neg (by omega), if_neg (by omega), Int.toNat_natCast, hm]
    simp only [hsum]
    rw [if_neg (by omega)]
    simp
  · intro hn
    unfold dirichletElement
    rw [if_neg (by omega), if_neg (by omega), Int.toNat_natCast, hm]
    simp only [hsum]
    rw [if_pos (by omega)]
    exact ⟨_, rfl, by ring⟩

/-- **C33 (errors).**  A negative order, a dimension below two, or a missing earlier element raises. -/
theorem C33_errors (order nDim : Int) (kwargs : Dict String ℝ) :
    (order < 0 ∨ nDim < 2 → dirichletElement order nDim kwargs = .error .valueError) ∧
    (0 ≤ order → 2 ≤ nDim → ∀ i : Nat, (i : Int) < order → get? kwargs ("concentration" ++ toString i) = none →
      dirichletElement order nDim kwargs = .error .key) := by
  refine ⟨?_, ?_⟩
  · intro h
    unfold dirichletElement
    by_cases h1 : order < 0
    · rw [if_pos h1]
    · rw [if_neg h1, if_pos (by omega)]
  · intro h1 h2 i hi hn
    unfold dirichletElement
    rw [if_neg (by omega), if_neg (by omega), mapM_get_none kwargs order.toNat i (by omega) hn]

/-- **C33 (violated: orders beyond the dimension).**  An order of at least `N` (there is no such element of an `N`-dimensional simplex) is
accepted when its earlier elements are given, and the resulting density is NaN at every point, for every sum. -/
theorem C33_order_too_large_violated (N n : Nat) (hN : 2 ≤ N) (hn : N ≤ n) (kwargs : Dict String ℝ) (x : Nat → ℝ)
    (h : ∀ i < n, get? kwargs ("concentration" ++ toString i) = some (x i)) :
    ∃ S, dirichletElement n N kwargs = .ok (.element n N S) ∧ ∀ v, logProbRaw n N S v = XR.nan := by
  have hm := mapM_get kwargs x n h
  refine ⟨((List.range n).map x).foldl (· + ·) 0, ?_, ?_⟩
  · unfold dirichletElement
    rw [if_neg (by omega), if_neg (by omega), Int.toNat_natCast, hm]
    simp only
    rw [if_neg (by omega)]
    simp
  · intro v
    unfold logProbRaw
    have hneg : (N : ℝ) - n - 1 < 0 := by
      have : (N : ℝ) ≤ n := by exact_mod_cast hn
      linarith
    have : XR.log (XR.fin ((N : ℝ) - n - 1)) = XR.nan := by
      simp only [XR.log]
      rw [if_neg (by linarith), if_neg (by linarith)]
    simp only [this]
    have h1 : ∀ a : XR, a - XR.nan = XR.nan := by intro a; cases a <;> rfl
    rw [h1, h1]

/-- A three-dimensional simplex: the second element after a first element of `1/4`; and the last after `1/4, 1/2`. -/
example : dirichletElement 1 3 [("concentration0", 1 / 4)] = .ok (.element 1 3 (1 / 4)) ∧
    ∃ v, dirichletElement 2 3 [("concentration0", 1 / 4), ("concentration1", 1 / 2)] = .ok (.delta v) ∧ v = 1 / 4 := by
  refine ⟨?_, ?_⟩
  · have := (C33_construction 3 1 (by norm_num) [("concentration0", 1 / 4)] (fun _ => 1 / 4) (by
      intro i hi; interval_cases i; rfl)).1 (by norm_num)
    simpa using this
  · obtain ⟨v, h1, h2⟩ := (C33_construction 3 2 (by norm_num) [("concentration0", 1 / 4), ("concentration1", 1 / 2)]
      (fun i => if i = 0 then 1 / 4 else 1 / 2) (by
        intro i hi
        have h01 : i = 0 ∨ i = 1 := by omega
        rcases h01 with rfl | rfl
        · rfl
        · rw [get?, if_neg (by decide +kernel), get?, if_pos (by decide +kernel)]; simp)).2 rfl
    refine ⟨v, h1, ?_⟩
    simp [Finset.sum_range_succ] at h2
    linarith

/-- The hypotheses of `C33_product_constant` hold at the point `(1/4, 1/2, 1/4)`. -/
example : ∑ i ∈ Finset.range (3 - 2), (fun i : Nat => if i = 0 then (1 / 4 : ℝ) else 1 / 2) i < 1 ∧
    ∑ i ∈ Finset.range (3 - 1), (fun i : Nat => if i = 0 then (1 / 4 : ℝ) else 1 / 2) i ≤ 1 := by
  simp [Finset.sum_range_succ]; norm_num

end GW.Dirichlet
