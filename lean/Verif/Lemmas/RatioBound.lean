import Verif.Props.GridNorm
import Mathlib.MeasureTheory.Function.Floor

/-! The tabulated mass-ratio total: it is determined by the grid, measurable, and the smoothed power law over it is bounded. -/

namespace GW.Hybrids
open GW MeasureTheory

noncomputable section
open Classical

/-- The interpolation of a table, by its cell number. -/
def cellValue (g : ℕ → ℝ) (lo hi m : ℝ) : ℝ :=
  g ⌊(m - lo) / (hi - lo) * 999⌋₊ + ((m - lo) / (hi - lo) * 999 - ⌊(m - lo) / (hi - lo) * 999⌋₊) *
    (g (⌊(m - lo) / (hi - lo) * 999⌋₊ + 1) - g ⌊(m - lo) / (hi - lo) * 999⌋₊)

theorem measurable_cellValue (g : ℕ → ℝ) (lo hi : ℝ) : Measurable (cellValue g lo hi) := by
  have hk : Measurable fun m : ℝ => ⌊(m - lo) / (hi - lo) * 999⌋₊ := Nat.measurable_floor.comp (by fun_prop)
  have h1 : Measurable fun m : ℝ => g ⌊(m - lo) / (hi - lo) * 999⌋₊ := (measurable_from_nat (f := g)).comp hk
  have h2 : Measurable fun m : ℝ => g (⌊(m - lo) / (hi - lo) * 999⌋₊ + 1) := (measurable_from_nat (f := fun n => g (n + 1))).comp hk
  have h3 : Measurable fun m : ℝ => ((⌊(m - lo) / (hi - lo) * 999⌋₊ : ℕ) : ℝ) := (measurable_from_nat (f := fun n => (n : ℝ))).comp hk
  unfold cellValue
  exact h1.add (((by fun_prop : Measurable fun m : ℝ => (m - lo) / (hi - lo) * 999).sub h3).mul (h2.sub h1))

theorem cellValue_eq {f : ℝ → ℝ} {lo hi m v : ℝ} (hlh : lo < hi) (h : Interpolates f lo hi 1000 m v) : v = cellValue (fun i => f (node lo hi 1000 i)) lo hi m := by
  obtain ⟨i, hi', h1, h2, hv⟩ := h
  have hd : 0 < hi - lo := by linarith
  have n0 : ∀ j : ℕ, node lo hi 1000 j = lo + (hi - lo) * (j / 999) := by intro j; norm_num [node]
  set t := (m - lo) / (hi - lo) * 999 with ht
  have t1 : (i : ℝ) ≤ t := by
    rw [n0] at h1
    rw [ht, div_mul_eq_mul_div, le_div_iff₀ hd]
    have : (hi - lo) * (i / 999) * 999 = i * (hi - lo) := by ring
    linarith
  have t2 : t ≤ (i : ℝ) + 1 := by
    rw [n0] at h2
    push_cast at h2
    rw [ht, div_mul_eq_mul_div, div_le_iff₀ hd]
    have : (hi - lo) * ((i + 1) / 999) * 999 = (i + 1) * (hi - lo) := by ring
    linarith
  have hfrac : (m - node lo hi 1000 i) / (node lo hi 1000 (i + 1) - node lo hi 1000 i) = t - i := by
    rw [n0, n0, ht]
    push_cast
    have : lo + (hi - lo) * ((i + 1) / 999) - (lo + (hi - lo) * (i / 999)) = (hi - lo) / 999 := by ring
    rw [this]
    field_simp
    ring
  rw [hv, hfrac]
  unfold cellValue
  rw [← ht]
  rcases t2.lt_or_eq with h | h
  · have : ⌊t⌋₊ = i := (Nat.floor_eq_iff ((Nat.cast_nonneg i).trans t1)).2 ⟨t1, h⟩
    simp only [this]
  · have : ⌊t⌋₊ = i + 1 := by
      rw [h]
      exact_mod_cast Nat.floor_natCast (i + 1)
    simp only [this]
    rw [h]
    push_cast
    ring

namespace Smoothing

/-- The total, as a function of the grid. -/
def gridRatioTotal (S : Smoothing) (m : ℝ) : ℝ :=
  if cellValue (fun i => table S.beta S.m2min S.width2 (node S.m1min S.m1max 1000 i)) S.m1min S.m1max m ≤ 0 then 1
  else cellValue (fun i => table S.beta S.m2min S.width2 (node S.m1min S.m1max 1000 i)) S.m1min S.m1max m

theorem measurable_gridRatioTotal (S : Smoothing) : Measurable S.gridRatioTotal :=
  Measurable.ite (measurableSet_le (measurable_cellValue _ _ _) measurable_const) measurable_const (measurable_cellValue _ _ _)

theorem IsRatioTotal.eq {S : Smoothing} (hSp : S.Proper) {Z : ℝ → ℝ} (hZ : S.IsRatioTotal Z) {m : ℝ} (h1 : S.m1min ≤ m) (h2 : m ≤ S.m1max) : Z m = S.gridRatioTotal m := by
  obtain ⟨v, -, v2, v3⟩ := hZ.2 m h1 h2
  rw [v3, cellValue_eq hSp.2.1 v2]
  rfl

/-- Two totals of the same smoothing give the same density. -/
theorem density_congr {S : Smoothing} (hSp : S.Proper) {Z : ℝ → ℝ} (hZ : S.IsRatioTotal Z) (total rest m q : ℝ) :
    S.density total Z rest m q = S.density total S.gridRatioTotal rest m q := by
  unfold density
  split_ifs with h
  · rw [hZ.eq hSp h.1.1 h.1.2]
  · rfl

theorem ratioCurve_nonneg (S : Smoothing) {m q : ℝ} (hq : 0 ≤ q) : 0 ≤ S.ratioCurve m q := mul_nonneg (Real.rpow_nonneg hq _) (planck_ge_zero _)

/-- The normalised curve is bounded, however small the total. -/
theorem ratio_bounded {S : Smoothing} (hSp : S.Proper) : ∃ C, 0 ≤ C ∧ ∀ Z, S.IsRatioTotal Z → ∀ m q, S.m1min ≤ m → m ≤ S.m1max → 0 ≤ q → q ≤ 1 → S.ratioCurve m q / Z m ≤ C := by
  obtain ⟨p1, p2, p3, p4, p5⟩ := hSp
  have hhi : 0 < S.m1max := p1.trans p2
  set M : ℝ := max 1 ((S.m2min / S.m1max) ^ S.beta) with hM
  have hM0 : 0 ≤ M := zero_le_one.trans (le_max_left _ _)
  set a : ℕ → ℝ := fun i => node S.m1min S.m1max 1000 i with ha
  set g : ℕ → ℝ := fun i => table S.beta S.m2min S.width2 (a i) with hg
  have hg0 : ∀ i, 0 ≤ g i := fun i => Mass.trapz_nonneg (by norm_num) (by norm_num) fun x k1 _ => curve_nonneg (by norm_num at k1 ⊢; linarith)
  set T : ℕ → ℝ := fun i => M / g i + M * 2 * ((a (i + 1) - a i) / S.width2) / g (i + 1) with hT
  have hd : ∀ i, 0 < a (i + 1) - a i := by
    intro i
    have : a (i + 1) - a i = (S.m1max - S.m1min) / 999 := by
      simp only [ha, node]
      push_cast
      ring
    rw [this]
    linarith
  have hT1 : ∀ i, 0 ≤ M / g i := fun i => div_nonneg hM0 (hg0 i)
  have hT2 : ∀ i, 0 ≤ M * 2 * ((a (i + 1) - a i) / S.width2) / g (i + 1) := fun i =>
    div_nonneg (mul_nonneg (mul_nonneg hM0 zero_le_two) (div_nonneg (hd i).le p5.le)) (hg0 _)
  have hT0 : ∀ i, 0 ≤ T i := fun i => add_nonneg (hT1 i) (hT2 i)
  refine ⟨∑ i ∈ Finset.range 999, T i, Finset.sum_nonneg fun i _ => hT0 i, fun Z hZ m q k1 k2 q1 q2 => ?_⟩
  rcases le_or_gt m S.m2min with hm | hm
  · have : S.ratioCurve m q = 0 := curve_zero (β := S.beta) p5 (by nlinarith)
    rw [this, zero_div]
    exact Finset.sum_nonneg fun i _ => hT0 i
  · obtain ⟨i, hi, i1, i2, hv⟩ := ratioTotal_eq ⟨p1, p2, p3, p4, p5⟩ hZ k1 k2 hm
    have hle : T i ≤ ∑ i ∈ Finset.range 999, T i := Finset.single_le_sum (fun i _ => hT0 i) (Finset.mem_range.2 (by omega))
    refine le_trans ?_ hle
    have hzp := hZ.1 m
    set t := (m - a i) / (a (i + 1) - a i) with ht
    have t0 : 0 ≤ t := div_nonneg (sub_nonneg.2 i1) (hd i).le
    have t1 : t ≤ 1 := (div_le_one (hd i)).2 (by simp only [ha]; linarith)
    have hmono : g i ≤ g (i + 1) := table_mono p5 (by have := hd i; linarith)
    have hz : Z m = g i + t * (g (i + 1) - g i) := hv
    have hc : S.ratioCurve m q ≤ M * planckTaper ((m * q - S.m2min) / S.width2) := curve_le p5 p3 hhi (p1.le.trans k1) k2 q1 q2
    rcases (hg0 i).lt_or_eq with hgi | hgi
    · have h1 : S.ratioCurve m q ≤ M := hc.trans (mul_le_of_le_one_right hM0 (planck_le_one _))
      have h2 : g i ≤ Z m := by
        rw [hz]
        have := mul_nonneg t0 (sub_nonneg.2 hmono)
        linarith
      calc S.ratioCurve m q / Z m ≤ M / g i := div_le_div₀ hM0 h1 hgi h2
        _ ≤ T i := le_add_of_nonneg_right (hT2 i)
    · have hai : a i ≤ S.m2min := by
        by_contra hcon
        exact (table_pos (β := S.beta) p5 (not_le.1 hcon)).ne hgi
      have hgn : 0 < g (i + 1) := table_pos p5 (lt_of_lt_of_le hm i2)
      have hzt : Z m = t * g (i + 1) := by rw [hz, ← hgi]; ring
      have htp : 0 < t := by
        by_contra hcon
        have : t = 0 := le_antisymm (not_lt.1 hcon) t0
        rw [hzt, this, zero_mul] at hzp
        exact lt_irrefl _ hzp
      have hpl : planckTaper ((m * q - S.m2min) / S.width2) ≤ 2 * ((m - a i) / S.width2) := by
        have hy : 0 ≤ (m - a i) / S.width2 := div_nonneg (sub_nonneg.2 i1) p5.le
        have e1 : planckTaper ((m * q - S.m2min) / S.width2) ≤ planckTaper ((m - a i) / S.width2) :=
          planck_mono (div_le_div_of_nonneg_right (by nlinarith) p5.le)
        have e2 := planck_slope hy
        have e3 : planckTaper 0 = 0 := by simp [planckTaper]
        rw [e3] at e2
        linarith
      have hma : (m - a i) / S.width2 = t * ((a (i + 1) - a i) / S.width2) := by
        rw [ht]
        have := (hd i).ne'
        field_simp
      refine le_trans ?_ (le_add_of_nonneg_left (hT1 i))
      rw [div_le_div_iff₀ hzp hgn, hzt]
      calc S.ratioCurve m q * g (i + 1) ≤ (M * (2 * (t * ((a (i + 1) - a i) / S.width2)))) * g (i + 1) := by
            refine mul_le_mul_of_nonneg_right (hc.trans (mul_le_mul_of_nonneg_left ?_ hM0)) hgn.le
            rw [← hma]
            exact hpl
        _ = _ := by ring

end Smoothing
end
end GW.Hybrids
