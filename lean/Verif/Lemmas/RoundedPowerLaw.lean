import Verif.Model.RoundedPowerLaw
import Verif.Spec.RoundedPowerLaw
import Verif.Lemmas.RoundedPosterior
import Verif.Lemmas.PowerLaw

/-!
# Lemmas for the power law density in rounded arithmetic
-/

namespace GW.RoundedPowerLaw
open GW XR Rounding RoundedLikelihood

variable {f : Format} {fl : ℝ → XR}

/-- Any result that does not overflow is off by `2^-p` relatively, or by half of `2^-p`. -/
theorem err_any (hw : Wide f) (h : Nearest f fl) {x : ℝ} (h2 : |x| ≤ (2 : ℝ) ^ f.emax) :
    ∃ y, fl x = fin y ∧ f.Mem y ∧ |y - x| ≤ (|x| + 1 / 2) / 2 ^ f.p := by
  have hpp : (0 : ℝ) < 2 ^ f.p := by positivity
  have key : ∀ x : ℝ, 0 ≤ x → x ≤ (2 : ℝ) ^ f.emax → ∃ y, fl x = fin y ∧ f.Mem y ∧ |y - x| ≤ (|x| + 1 / 2) / 2 ^ f.p := by
    intro x h0 h2
    obtain ⟨y, e, m, -, b⟩ := Nearest.err_nonneg hw h h0 h2
    refine ⟨y, e, m, b.trans (div_le_div_of_nonneg_right ?_ hpp.le)⟩
    rw [abs_of_nonneg h0]
    exact max_le (by linarith) (by linarith)
  rcases le_total 0 x with hx | hx
  · rw [abs_of_nonneg hx] at h2
    exact key x hx h2
  · rw [abs_of_nonpos hx] at h2
    obtain ⟨y, hy, hm, he⟩ := key (-x) (by linarith) h2
    have := h.odd x
    rw [hy] at this
    refine ⟨-y, ?_, hm.neg, ?_⟩
    · revert this; cases fl x <;> simp
      intro e; rw [e]; ring
    · rw [show -y - x = -(y - -x) by ring, abs_neg]; simpa using he

theorem log_step (hw : Wide f) (h : Nearest f fl) {V Q G : ℝ} (hV : 0 < V) (hG : 0 ≤ G) (hG1 : G ≤ 1 / 8) (hQ : |Q - V| ≤ G * V)
    (hb : |Real.log V| + 1 ≤ (2 : ℝ) ^ f.emax) :
    ∃ r, rd fl (XR.log (fin Q)) = fin r ∧ f.Mem r ∧ |r - Real.log V| ≤ 5 / 4 * G + (|Real.log V| + 1) / 2 ^ f.p := by
  have hpp : (0 : ℝ) < 2 ^ f.p := by positivity
  have hQ0 : 0 < Q := by have := (abs_le.1 hQ).1; nlinarith
  have h1 := log_rel hV hG (by linarith) hQ
  have h2 : |Real.log Q| ≤ |Real.log V| + 1 / 2 := by
    have := abs_sub_abs_le_abs_sub (Real.log Q) (Real.log V)
    linarith
  obtain ⟨r, e, m, b⟩ := err_any hw h (x := Real.log Q) (by linarith)
  refine ⟨r, by rw [log_fin_pos hQ0]; exact e, m, ?_⟩
  have h3 : (|Real.log Q| + 1 / 2) / 2 ^ f.p ≤ (|Real.log V| + 1) / 2 ^ f.p := div_le_div_of_nonneg_right (by linarith) hpp.le
  have h4 := abs_sub_le r (Real.log Q) (Real.log V)
  linarith

theorem quot_close {β β' D D' g u : ℝ} (hβ : |β' - β| ≤ u * |β|) (hD : |D' - D| ≤ g * |D|) (u0 : 0 ≤ u) (hu : u ≤ g / 4) (hg : g ≤ 1 / 16)
    (hJ : 0 < D / β) : |D' / β' - D / β| ≤ 3 / 2 * g * (D / β) ∧ β' ≠ 0 := by
  have hβ0 : β ≠ 0 := by rintro rfl; simp at hJ
  have hD0 : D ≠ 0 := by rintro rfl; simp at hJ
  obtain ⟨δ, hδ⟩ : ∃ δ, β' = β * (1 + δ) := ⟨β' / β - 1, by field_simp; ring⟩
  obtain ⟨η, hη⟩ : ∃ η, D' = D * (1 + η) := ⟨D' / D - 1, by field_simp; ring⟩
  have hδ' : |δ| ≤ u := by
    rw [hδ, show β * (1 + δ) - β = δ * β by ring, abs_mul] at hβ
    exact le_of_mul_le_mul_right hβ (abs_pos.2 hβ0)
  have hη' : |η| ≤ g := by
    rw [hη, show D * (1 + η) - D = η * D by ring, abs_mul] at hD
    exact le_of_mul_le_mul_right hD (abs_pos.2 hD0)
  obtain ⟨d1, d2⟩ := abs_le.1 hδ'
  obtain ⟨n1, n2⟩ := abs_le.1 hη'
  have hp : 0 < 1 + δ := by linarith
  refine ⟨?_, by rw [hδ]; exact mul_ne_zero hβ0 hp.ne'⟩
  have e : D' / β' - D / β = (η - δ) / (1 + δ) * (D / β) := by
    rw [hδ, hη]; field_simp; ring
  rw [e, abs_mul, abs_of_pos hJ]
  refine mul_le_mul_of_nonneg_right ?_ hJ.le
  rw [abs_div, abs_of_pos hp, div_le_iff₀ hp]
  have : |η - δ| ≤ 5 / 4 * g := by rw [abs_le]; constructor <;> linarith
  nlinarith

theorem exp_close {t : ℝ} {s : ℝ} (ht : |t| ≤ s) (hs : s ≤ 1 / 8) : |Real.exp t - 1| ≤ 2 * s := by
  have := Real.abs_exp_sub_one_le (x := t) (by linarith)
  linarith

/-- A power with a slightly wrong exponent. -/
theorem power_close (hw : Wide f) (h : Nearest f fl) {b β β' E : ℝ} (hb : 0 < b) (hβ : |β' - β| ≤ 1 / 2 ^ f.p * |β|) (hE : 1 + |β| * |Real.log b| ≤ E)
    (hE8 : 8 * E ≤ 2 ^ f.p) (l1 : (2 : ℝ) ^ (f.emin + f.p) ≤ b ^ β) (l2 : b ^ β ≤ (2 : ℝ) ^ (f.emax - 1)) :
    ∃ y, power fl (fin b) (fin β') = fin y ∧ f.Mem y ∧ |y - b ^ β| ≤ 2 * E * (1 / 2 ^ f.p) * b ^ β := by
  have hpp : (0 : ℝ) < 2 ^ f.p := by positivity
  set u : ℝ := 1 / 2 ^ f.p with hu
  have u0 : 0 < u := by positivity
  have hEu : 8 * E * u ≤ 1 := by rw [hu, mul_one_div, div_le_one hpp]; exact hE8
  have hX : 0 < b ^ β := Real.rpow_pos_of_pos hb _
  set t := (β' - β) * Real.log b with ht
  have e0 : b ^ β' = b ^ β * Real.exp t := by
    rw [Real.rpow_def_of_pos hb, Real.rpow_def_of_pos hb, ← Real.exp_add, ht]; congr 1; ring
  have ht1 : |t| ≤ (E - 1) * u := by
    rw [ht, abs_mul]
    have := mul_le_mul_of_nonneg_right hβ (abs_nonneg (Real.log b))
    nlinarith
  have hE1 : 1 ≤ E := by have := mul_nonneg (abs_nonneg β) (abs_nonneg (Real.log b)); linarith
  have hs : |Real.exp t - 1| ≤ 2 * ((E - 1) * u) := exp_close ht1 (by nlinarith)
  obtain ⟨s1, s2⟩ := abs_le.1 hs
  have q1 : 1 / 2 ≤ Real.exp t := by nlinarith
  have q2 : Real.exp t ≤ 2 := by nlinarith
  have w1 : (2 : ℝ) ^ (f.emin + f.p) = 2 ^ (f.emin + f.p - 1) * 2 := by rw [← zpow_add_one₀ (by norm_num)]; congr 1; ring
  have w2 : (2 : ℝ) ^ f.emax = 2 ^ (f.emax - 1) * 2 := by rw [← zpow_add_one₀ (by norm_num)]; congr 1; ring
  have r1 : (2 : ℝ) ^ (f.emin + f.p - 1) ≤ b ^ β * Real.exp t := by nlinarith
  have r2 : b ^ β * Real.exp t ≤ (2 : ℝ) ^ f.emax := by rw [w2]; nlinarith
  obtain ⟨y, e, m, he⟩ := h.rel (by have := hw.1.1; omega) r1 r2
  refine ⟨y, ?_, m, ?_⟩
  · show rd fl (XR.pow (fin b) β') = _
    have : XR.pow (fin b) β' = fin (b ^ β') := by simp [XR.pow, hb]
    rw [this, e0]; exact e
  · have a1 : |b ^ β * Real.exp t - b ^ β| ≤ 2 * ((E - 1) * u) * b ^ β := by
      rw [show b ^ β * Real.exp t - b ^ β = (Real.exp t - 1) * b ^ β by ring, abs_mul, abs_of_pos hX]
      exact mul_le_mul_of_nonneg_right hs hX.le
    have a2 : b ^ β * Real.exp t / 2 ^ f.p ≤ (1 + 2 * ((E - 1) * u)) * u * b ^ β := by
      rw [div_eq_mul_one_div, ← hu]
      have : b ^ β * Real.exp t ≤ b ^ β * (1 + 2 * ((E - 1) * u)) := mul_le_mul_of_nonneg_left (by linarith) hX.le
      have := mul_le_mul_of_nonneg_right this u0.le
      linarith
    have a3 := abs_sub_le y (b ^ β * Real.exp t) (b ^ β)
    have a4 : 2 * ((E - 1) * u) + (1 + 2 * ((E - 1) * u)) * u ≤ 2 * E * u := by nlinarith
    have := mul_le_mul_of_nonneg_right a4 hX.le
    linarith

/-- The condition of the difference of the two powers. -/
theorem diff_close {H L H' L' D'' E u κ : ℝ} (hL : 0 < L) (hH : 0 < H) (hne : H ≠ L) (hκ : κ = (H + L) / |H - L|) (hE : 1 ≤ E) (u0 : 0 < u)
    (hu : 64 * (E * κ) * u ≤ 1) (h1 : |H' - H| ≤ 2 * E * u * H) (h2 : |L' - L| ≤ 2 * E * u * L) (h3 : |D'' - (H' - L')| ≤ u * |H' - L'|) :
    |D'' - (H - L)| ≤ 4 * (E * κ) * u * |H - L| ∧ 1 ≤ κ ∧ |H' - L'| ≤ 2 * |H - L| := by
  have hD : 0 < |H - L| := abs_pos.2 (sub_ne_zero.2 hne)
  have hκ1 : 1 ≤ κ := by
    rw [hκ, le_div_iff₀ hD, one_mul, abs_le]; constructor <;> linarith
  have hκD : H + L = κ * |H - L| := by rw [hκ]; field_simp
  have a1 : |(H' - L') - (H - L)| ≤ 2 * (E * κ) * u * |H - L| := by
    have b1 := abs_sub (H' - H) (L' - L)
    rw [show H' - L' - (H - L) = H' - H - (L' - L) by ring]
    have b2 : 2 * E * u * H + 2 * E * u * L = 2 * (E * κ) * u * |H - L| := by
      rw [← mul_add, hκD]; ring
    linarith
  have hEκ : 1 ≤ E * κ := by nlinarith
  have a2 : |H' - L'| ≤ (1 + 2 * (E * κ) * u) * |H - L| := by
    have := abs_sub_abs_le_abs_sub (H' - L') (H - L)
    linarith
  have a3 : (1 + 2 * (E * κ) * u) * |H - L| ≤ 2 * |H - L| := mul_le_mul_of_nonneg_right (by linarith) hD.le
  refine ⟨?_, hκ1, a2.trans a3⟩
  have a4 := abs_sub_le D'' (H' - L') (H - L)
  have a5 : u * |H' - L'| ≤ u * (2 * |H - L|) := mul_le_mul_of_nonneg_left (a2.trans a3) u0.le
  have a6 : u * (2 * |H - L|) ≤ 2 * (E * κ) * u * |H - L| := by
    have : 0 < u * |H - L| := by positivity
    nlinarith
  linarith

theorem mask_ne {α : ℝ} (h : α ≠ -1) : PowerLaw.mask α = true ∧ PowerLaw.safeAlpha α = α := by simp [PowerLaw.mask, PowerLaw.safeAlpha, h]
theorem mask_eq : PowerLaw.mask (-1) = false := by simp [PowerLaw.mask]

theorem mass_eq_J (α l h : ℝ) : mass α l h = PowerLaw.J α l h := rfl

theorem norm_ne (hw : Wide f) (h : Nearest f fl) {α low high : ℝ} (hα : f.Mem α) (hne : α ≠ -1) (hl : 0 < low) (hlh : low < high)
    (hr : InRange f α low high) (hA : 64 * amplification α low high ≤ 2 ^ f.p) :
    ∃ r, logNorm fl α low high = fin r ∧ f.Mem r ∧
      |r - Real.log (mass α low high)| ≤ (11 * amplification α low high + |Real.log (mass α low high)|) / 2 ^ f.p := by
  have hh := hl.trans hlh
  have hpp : (0 : ℝ) < 2 ^ f.p := by positivity
  have hV : 0 < mass α low high := PowerLaw.J_pos hl hlh
  have hVc : mass α low high = (high ^ (1 + α) - low ^ (1 + α)) / (1 + α) := PowerLaw.J_closed hne hl hh
  obtain ⟨h8, hmz⟩ := mask_ne hne
  have hβ0 : 1 + α ≠ 0 := fun hc => hne (by linarith)
  set β := 1 + α with hβ
  set u : ℝ := 1 / 2 ^ f.p with hu
  have u0 : 0 < u := by positivity
  have du : ∀ x : ℝ, x / 2 ^ f.p = x * u := fun x => by rw [hu]; ring
  set E := 1 + |β| * Max.max |Real.log high| |Real.log low| with hEd
  set κ := (high ^ β + low ^ β) / |high ^ β - low ^ β| with hκd
  have hAe : amplification α low high = E * κ := by simp only [amplification, if_neg hne, hEd, hκd, hβ]
  have hH : 0 < high ^ β := Real.rpow_pos_of_pos hh _
  have hL : 0 < low ^ β := Real.rpow_pos_of_pos hl _
  have hHL : high ^ β ≠ low ^ β := fun hc => by rw [hVc, hc, sub_self, zero_div] at hV; exact lt_irrefl _ hV
  have hE1 : 1 ≤ E := by
    have := mul_nonneg (abs_nonneg β) ((abs_nonneg (Real.log high)).trans (le_max_left _ |Real.log low|))
    linarith
  have hκ1 : 1 ≤ κ := by
    rw [hκd, le_div_iff₀ (abs_pos.2 (sub_ne_zero.2 hHL)), one_mul, abs_le]; constructor <;> linarith
  have hEκ : E ≤ E * κ := by nlinarith
  have hEu : u ≤ E * κ * u := by
    have := mul_le_mul_of_nonneg_right (hE1.trans hEκ) u0.le
    linarith
  rw [hAe] at hA ⊢
  have hAu : 64 * (E * κ) * u ≤ 1 := by rw [← du, div_le_one hpp]; exact hA
  obtain ⟨β', e1, m1, b1⟩ := Nearest.err_add hw.1 h (a := 1) (b := α) (by simpa using two_pow_mem hw.1 (k := 0) (by linarith [hw.1.2.1]) hw.1.2.2) hα hr.exponent
  rw [← hβ] at e1
  have b1' : |β' - β| ≤ u * |β| := by rw [mul_comm, ← du]; exact b1
  have eb : add fl (fin 1) (fin (PowerLaw.safeAlpha α)) = fin β' := by rw [hmz]; exact e1
  obtain ⟨p1, p2⟩ := hr.powers hne high (Or.inr rfl)
  obtain ⟨p3, p4⟩ := hr.powers hne low (Or.inl rfl)
  obtain ⟨H', e2, m2, b2⟩ := power_close hw h hh b1' (E := E)
    (by have := mul_le_mul_of_nonneg_left (le_max_left |Real.log high| |Real.log low|) (abs_nonneg β); linarith) (by linarith) p1 p2
  obtain ⟨L', e3, m3, b3⟩ := power_close hw h hl b1' (E := E)
    (by have := mul_le_mul_of_nonneg_left (le_max_right |Real.log high| |Real.log low|) (abs_nonneg β); linarith) (by linarith) p3 p4
  have w2 : (2 : ℝ) ^ f.emax = 2 ^ (f.emax - 1) * 2 := by rw [← zpow_add_one₀ (by norm_num)]; congr 1; ring
  have w1 : (2 : ℝ) ^ (f.emin + f.p) = 2 ^ (f.emin + f.p - 1) * 2 := by rw [← zpow_add_one₀ (by norm_num)]; congr 1; ring
  have hD1 : |H' - L'| ≤ 2 * |high ^ β - low ^ β| :=
    (diff_close hL hH hHL hκd hE1 u0 hAu b2 b3 (D'' := H' - L') (by simp; positivity)).2.2
  have hD2 : |high ^ β - low ^ β| ≤ (2 : ℝ) ^ (f.emax - 1) := by rw [abs_le]; constructor <;> linarith
  obtain ⟨D', e4, m4, b4⟩ := Nearest.err_add hw.1 h m2 m3.neg (by rw [← sub_eq_add_neg]; linarith)
  rw [← sub_eq_add_neg, du, mul_comm] at b4
  have hD3 := (diff_close hL hH hHL hκd hE1 u0 hAu b2 b3 b4).1
  have hq := quot_close (g := 4 * (E * κ) * u) b1' hD3 u0.le (by linarith) (by linarith) (by rw [← hVc]; exact hV)
  rw [← hVc] at hq
  obtain ⟨q1, q2⟩ := hq
  obtain ⟨q3, q4⟩ := abs_le.1 q1
  set V := mass α low high with hVd
  set g := 4 * (E * κ) * u with hg
  have hg16 : g ≤ 1 / 16 := by linarith
  have hug : u ≤ g / 4 := by rw [hg]; linarith
  have hgV : g * V ≤ 1 / 16 * V := mul_le_mul_of_nonneg_right hg16 hV.le
  obtain ⟨Q', e5, m5, b5⟩ := h.rel (x := D' / β') (by have := hw.1.1; omega) (by have := hr.massLow; linarith) (by have := hr.massHigh; linarith)
  have hQ : |Q' - V| ≤ 2 * g * V := by
    have c1 := abs_sub_le Q' (D' / β') V
    rw [du] at b5
    have c2 : D' / β' * u ≤ (3 / 2 * V) * (g / 4) := mul_le_mul (by linarith) hug u0.le (by linarith)
    have c3 : 0 ≤ V * g := by positivity
    linarith
  obtain ⟨r, e6, m6, b6⟩ := log_step hw h hV (G := 2 * g) (by positivity) (by linarith) hQ hr.logMass
  refine ⟨r, ?_, m6, b6.trans ?_⟩
  · have e4' : sub fl (fin H') (fin L') = fin D' := e4
    have e5' : div fl (fin D') (fin β') = fin Q' := by
      show rd fl (fin D' / fin β') = _
      rw [div_fin_of_ne _ q2]; exact e5
    simp only [logNorm, h8, select_true, eb, e2, e3, e4', e5', e6]
  · rw [du, du, hg]
    linarith

theorem norm_eq (hw : Wide f) (h : Nearest f fl) {low high : ℝ} (hl : 0 < low) (hlh : low < high)
    (hr : InRange f (-1) low high) (hA : 64 * amplification (-1) low high ≤ 2 ^ f.p) :
    ∃ r, logNorm fl (-1) low high = fin r ∧ f.Mem r ∧
      |r - Real.log (mass (-1) low high)| ≤ (11 * amplification (-1) low high + |Real.log (mass (-1) low high)|) / 2 ^ f.p := by
  have hh := hl.trans hlh
  have hpp : (0 : ℝ) < 2 ^ f.p := by positivity
  have hV : 0 < mass (-1) low high := PowerLaw.J_pos hl hlh
  have hVc : mass (-1) low high = Real.log (high / low) := PowerLaw.J_neg_one hl hh
  have hVc' : mass (-1) low high = Real.log high - Real.log low := by rw [hVc, Real.log_div hh.ne' hl.ne']
  set u : ℝ := 1 / 2 ^ f.p with hu
  have u0 : 0 < u := by positivity
  have du : ∀ x : ℝ, x / 2 ^ f.p = x * u := fun x => by rw [hu]; ring
  set V := mass (-1) low high with hVd
  set A := amplification (-1) low high with hAd
  have hAV : A * V = |Real.log high| + |Real.log low| + 2 := by
    rw [hAd, amplification, if_pos rfl, ← hVc]; field_simp
  have hA1 : 1 ≤ A := by
    have : V ≤ A * V := by rw [hAV, hVc']; linarith [le_abs_self (Real.log high), neg_abs_le (Real.log low)]
    nlinarith
  have hAu : 64 * A * u ≤ 1 := by rw [← du, div_le_one hpp]; exact hA
  have hlg := hr.logs
  obtain ⟨H', e1, m1, b1⟩ := err_any hw h (x := Real.log high) (by linarith [abs_nonneg (Real.log low)])
  obtain ⟨L', e2, m2, b2⟩ := err_any hw h (x := Real.log low) (by linarith [abs_nonneg (Real.log high)])
  rw [du] at b1 b2
  have hD1 : |H' - L' - V| ≤ A * u * V := by
    have c1 := abs_sub (H' - Real.log high) (L' - Real.log low)
    rw [hVc', show H' - L' - (Real.log high - Real.log low) = H' - Real.log high - (L' - Real.log low) by ring, ← hVc']
    have : A * u * V = (|Real.log high| + |Real.log low| + 2) * u := by rw [← hAV]; ring
    linarith
  have hD2 : |H' - L'| ≤ 2 * V := by
    have c1 := abs_sub_abs_le_abs_sub (H' - L') V
    rw [abs_of_pos hV] at c1
    have : A * u * V ≤ 1 * V := mul_le_mul_of_nonneg_right (by linarith) hV.le
    linarith
  have w2 : (2 : ℝ) ^ f.emax = 2 ^ (f.emax - 1) * 2 := by rw [← zpow_add_one₀ (by norm_num)]; congr 1; ring
  obtain ⟨D', e3, m3, b3⟩ := Nearest.err_add hw.1 h m1 m2.neg (by rw [← sub_eq_add_neg]; have := hr.massHigh; linarith)
  rw [← sub_eq_add_neg, du] at b3
  have hQ : |D' - V| ≤ 3 * A * u * V := by
    have c1 := abs_sub_le D' (H' - L') V
    have c2 : |H' - L'| * u ≤ 2 * V * u := mul_le_mul_of_nonneg_right hD2 u0.le
    have c3 : 0 ≤ (A - 1) * (V * u) := mul_nonneg (by linarith) (by positivity)
    linarith
  obtain ⟨r, e4, m4, b4⟩ := log_step hw h hV (G := 3 * A * u) (by positivity) (by linarith) hQ hr.logMass
  refine ⟨r, ?_, m4, b4.trans ?_⟩
  · have e1' : rd fl (XR.log (fin high)) = fin H' := by rw [log_fin_pos hh]; exact e1
    have e2' : rd fl (XR.log (fin low)) = fin L' := by rw [log_fin_pos hl]; exact e2
    have e3' : sub fl (fin H') (fin L') = fin D' := e3
    simp only [logNorm, mask_eq, select_false, e1', e2', e3', e4]
  · rw [du, du]
    nlinarith

/-- What rounds to zero. -/
theorem Nearest.tiny (hf : f.Usable) (h : Nearest f fl) {x : ℝ} (h0 : 0 ≤ x) (h1 : x < (2 : ℝ) ^ (f.emin - 1)) : fl x = fin 0 := by
  have w : (2 : ℝ) ^ f.emin = 2 ^ (f.emin - 1) * 2 := by rw [← zpow_add_one₀ (by norm_num)]; congr 1; ring
  have m1 := two_pow_mem hf (k := f.emin) le_rfl (by linarith [hf.2.1, hf.2.2])
  have hx : |x| < f.limit := by
    have := mem_abs_lt m1
    rw [abs_of_pos (by positivity)] at this
    have : (0 : ℝ) < 2 ^ (f.emin - 1) := by positivity
    rw [abs_of_nonneg h0]; linarith
  obtain ⟨y, e, ⟨n, k, -, hk, -, rfl⟩, hn⟩ := h.inside x hx
  have h2 := hn 0 (mem_zero hf)
  rw [sub_zero, abs_of_nonneg h0] at h2
  have hk2 : (2 : ℝ) ^ f.emin ≤ 2 ^ k := zpow_le_zpow_right₀ (by norm_num) hk
  obtain ⟨h3, h4⟩ := abs_le.1 h2
  have hk0 : (0 : ℝ) < 2 ^ k := by positivity
  have hn0 : n = 0 := by
    by_contra hc
    rcases lt_or_gt_of_ne hc with hc | hc
    · have : (n : ℝ) ≤ -1 := by exact_mod_cast Int.le_sub_one_of_lt hc
      nlinarith
    · have : (1 : ℝ) ≤ n := by exact_mod_cast hc
      nlinarith
  rw [e, hn0]; simp

theorem Nearest.zero (hf : f.Usable) (h : Nearest f fl) : fl 0 = fin 0 := h.exact (mem_zero hf)

/-- If the two powers round to the same number, the normalisation constant vanishes. -/
theorem same_powers (hf : f.Usable) (h : Nearest f fl) {α low high β y : ℝ} (hne : α ≠ -1) (hβ : β ≠ 0) (e1 : fl (1 + α) = fin β)
    (hl : 0 < low) (hh : 0 < high) (e2 : fl (high ^ β) = fin y) (e3 : fl (low ^ β) = fin y) : logNorm fl α low high = ninf := by
  obtain ⟨h8, hmz⟩ := mask_ne hne
  have eb : add fl (fin 1) (fin (PowerLaw.safeAlpha α)) = fin β := by rw [hmz]; exact e1
  have e2' : power fl (fin high) (fin β) = fin y := by show rd fl (XR.pow (fin high) β) = _; rw [pow_fin_pos hh]; exact e2
  have e3' : power fl (fin low) (fin β) = fin y := by show rd fl (XR.pow (fin low) β) = _; rw [pow_fin_pos hl]; exact e3
  have e4 : sub fl (fin y) (fin y) = fin 0 := by
    show fl (y - y) = _
    rw [sub_self]; exact Nearest.zero hf h
  have e5 : div fl (fin 0) (fin β) = fin 0 := by
    show rd fl (fin 0 / fin β) = _
    rw [div_fin_of_ne _ hβ, zero_div]; exact Nearest.zero hf h
  simp only [logNorm, h8, select_true, eb, e2', e3', e4, e5, log_fin_zero, rd]

/-- The first term of the log density is finite. -/
theorem slope_term (hw : Wide f) (h : Nearest f fl) {α x : ℝ} (hx : 0 < x) (h1 : |Real.log x| ≤ (2 : ℝ) ^ f.emax)
    (h2 : |α| * (2 * |Real.log x| + 1) ≤ (2 : ℝ) ^ f.emax) :
    ∃ m, mul fl (fin α) (rd fl (XR.log (fin x))) = fin m ∧ f.Mem m ∧
      |m - α * Real.log x| ≤ (3 * (|α| * (|Real.log x| + 1)) + 1) / 2 ^ f.p ∧ |m| ≤ 3 * (|α| * (|Real.log x| + 1)) + 1 := by
  have hpp : (0 : ℝ) < 2 ^ f.p := by positivity
  have h8 := pow_ge_eight hw.1
  set u : ℝ := 1 / 2 ^ f.p with hu
  have u0 : 0 < u := by positivity
  have u8 : u ≤ 1 / 8 := by rw [hu]; exact one_div_le_one_div_of_le (by norm_num) h8
  have du : ∀ x : ℝ, x / 2 ^ f.p = x * u := fun x => by rw [hu]; ring
  obtain ⟨l, e1, m1, b1⟩ := err_any hw h h1
  rw [du] at b1
  set ℓ := |Real.log x| with hℓ
  have ℓ0 : 0 ≤ ℓ := abs_nonneg _
  have hl : |l| ≤ 2 * ℓ + 1 := by
    have := abs_sub_abs_le_abs_sub l (Real.log x)
    nlinarith
  have hal : |α * l| ≤ |α| * (2 * ℓ + 1) := by rw [abs_mul]; exact mul_le_mul_of_nonneg_left hl (abs_nonneg _)
  obtain ⟨m, e2, m2, b2⟩ := err_any hw h (hal.trans h2)
  rw [du] at b2
  have a0 := abs_nonneg α
  have k0 : 0 ≤ |α| * ℓ := by positivity
  have c1 : |α * l - α * Real.log x| ≤ |α| * (ℓ + 1) * u := by
    rw [← mul_sub, abs_mul, mul_assoc]
    refine mul_le_mul_of_nonneg_left (b1.trans (mul_le_mul_of_nonneg_right (by linarith) u0.le)) a0
  have c2 : |α * l| ≤ 2 * (|α| * (ℓ + 1)) := by linarith
  have c3 : (|α * l| + 1 / 2) * u ≤ (2 * (|α| * (ℓ + 1)) + 1) * u := mul_le_mul_of_nonneg_right (by linarith) u0.le
  refine ⟨m, ?_, m2, ?_, ?_⟩
  · rw [log_fin_pos hx]
    show mul fl (fin α) (fl (Real.log x)) = _
    rw [e1]; exact e2
  · rw [du]
    have := abs_sub_le m (α * l) (α * Real.log x)
    linarith
  · have := abs_sub_abs_le_abs_sub m (α * l)
    have c4 : (2 * (|α| * (ℓ + 1)) + 1) * u ≤ (2 * (|α| * (ℓ + 1)) + 1) * (1 / 8) := mul_le_mul_of_nonneg_left u8 (by positivity)
    nlinarith

theorem log_hundred {b : ℝ} (h1 : 25 ≤ b) (h2 : b ≤ 100) : 3 < Real.log b ∧ Real.log b < 47 / 10 := by
  have hb : 0 < b := by linarith
  constructor
  · rw [Real.lt_log_iff_exp_lt hb, show (3 : ℝ) = ((3 : ℕ) : ℝ) * 1 by norm_num, Real.exp_nat_mul]
    have := Real.exp_one_lt_d9
    have h0 := Real.exp_pos 1
    have : Real.exp 1 ^ 3 ≤ (2.7182818286 : ℝ) ^ 3 := pow_le_pow_left₀ h0.le this.le 3
    norm_num at this ⊢
    linarith
  · rw [Real.log_lt_iff_lt_exp hb]
    have e : Real.exp (47 / 10) ^ 10 = Real.exp 1 ^ 47 := by
      rw [← Real.exp_nat_mul, ← Real.exp_nat_mul]; norm_num
    have h3 : (2.718 : ℝ) ^ 47 ≤ Real.exp 1 ^ 47 := pow_le_pow_left₀ (by norm_num) (by have := Real.exp_one_gt_d9; linarith) 47
    have h4 : b ^ 10 ≤ (100 : ℝ) ^ 10 := pow_le_pow_left₀ hb.le h2 10
    have h5 : b ^ 10 < Real.exp (47 / 10) ^ 10 := by
      rw [e]; norm_num at h3 h4 ⊢; linarith
    exact lt_of_pow_lt_pow_left₀ 10 (Real.exp_pos _).le h5

/-- With an exponent of `2^-p` every base between 25 and 100 gives the same power. -/
theorem flat_power (hw : Wide f) (h : Nearest f fl) (hp : 7 ≤ f.p) {b : ℝ} (h1 : 25 ≤ b) (h2 : b ≤ 100) :
    fl (b ^ ((2 : ℝ) ^ (-(f.p : ℤ)))) = fin (((2 ^ (f.p - 1) + 2 : ℤ) : ℝ) * (2 : ℝ) ^ (1 - (f.p : ℤ))) := by
  obtain ⟨l1, l2⟩ := log_hundred h1 h2
  set u : ℝ := (2 : ℝ) ^ (-(f.p : ℤ)) with hu
  have u0 : 0 < u := by positivity
  have u7 : u ≤ 1 / 128 := by
    rw [show (1 / 128 : ℝ) = 2 ^ (-7 : ℤ) by norm_num]
    exact zpow_le_zpow_right₀ (by norm_num) (by omega)
  have e2u : (2 : ℝ) ^ (1 - (f.p : ℤ)) = 2 * u := by rw [sub_eq_add_neg, zpow_add₀ (by norm_num)]; simp [hu]
  have ep : ((2 ^ (f.p - 1) + 2 : ℤ) : ℝ) * (2 : ℝ) ^ (1 - (f.p : ℤ)) = 1 + 4 * u := by
    have : ((2 : ℝ) ^ (f.p - 1)) * (2 : ℝ) ^ (1 - (f.p : ℤ)) = 1 := by
      rw [← zpow_natCast, ← zpow_add₀ (by norm_num)]
      have : ((f.p - 1 : ℕ) : ℤ) + (1 - (f.p : ℤ)) = 0 := by omega
      rw [this, zpow_zero]
    push_cast
    rw [add_mul, this, e2u]; ring
  have hge : (64 : ℤ) ≤ 2 ^ (f.p - 1) := by
    calc (64 : ℤ) = 2 ^ 6 := by norm_num
      _ ≤ 2 ^ (f.p - 1) := pow_le_pow_right₀ (by norm_num) (by omega)
  have h2p : (2 : ℤ) ^ f.p = 2 * 2 ^ (f.p - 1) := by rw [← pow_succ']; congr 1; omega
  have hw1 := hw.2.1
  have hw2 := hw.2.2
  refine h.eq_of_close _ _ (by omega) (by linarith) (by linarith) (by omega) (by omega) ?_
  rw [ep, e2u, Real.rpow_def_of_pos (by linarith : 0 < b)]
  set t := Real.log b * u with ht
  have t1 : 3 * u < t := mul_lt_mul_of_pos_right l1 u0
  have t2 : t < 47 / 10 * u := mul_lt_mul_of_pos_right l2 u0
  have t0 : 0 < t := by linarith
  have a1 := Real.add_one_le_exp t
  have a2 := Real.abs_exp_sub_one_sub_id_le (x := t) (by rw [abs_of_pos t0]; linarith)
  have a3 := (abs_le.1 a2).2
  have a4 : t ^ 2 < 3 / 10 * u := by nlinarith
  rw [abs_lt]
  constructor <;> linarith

theorem pinf_div_pos {b : ℝ} (hb : 0 < b) : pinf / fin b = pinf := by
  show XR.div pinf (fin b) = pinf
  simp [XR.div, hb.le]

theorem condition_ge {H L : ℝ} (hH : 0 < H) (hL : 0 < L) (hne : H ≠ L) : 1 ≤ (H + L) / |H - L| := by
  rw [le_div_iff₀ (abs_pos.2 (sub_ne_zero.2 hne)), one_mul, abs_le]; constructor <;> linarith

theorem powers_ne {α low high : ℝ} (hl : 0 < low) (hlh : low < high) (hne : α ≠ -1) : high ^ (1 + α) ≠ low ^ (1 + α) := by
  have hV : 0 < PowerLaw.J α low high := PowerLaw.J_pos hl hlh
  rw [PowerLaw.J_closed hne hl (hl.trans hlh)] at hV
  intro hc
  rw [hc, sub_self, zero_div] at hV
  exact lt_irrefl _ hV

theorem one_le_amplification {alpha low high : ℝ} (hl : 0 < low) (hlh : low < high) : 1 ≤ amplification alpha low high := by
  have hh := hl.trans hlh
  by_cases hne : alpha = -1
  · rw [amplification, if_pos hne, le_div_iff₀ (Real.log_pos (by rwa [one_lt_div hl])), Real.log_div hh.ne' hl.ne']
    linarith [le_abs_self (Real.log high), neg_abs_le (Real.log low)]
  · rw [amplification, if_neg hne]
    have h1 := condition_ge (Real.rpow_pos_of_pos hh (1 + alpha)) (Real.rpow_pos_of_pos hl (1 + alpha)) (powers_ne hl hlh hne)
    have h2 := mul_nonneg (abs_nonneg (1 + alpha)) ((abs_nonneg (Real.log high)).trans (le_max_left _ |Real.log low|))
    nlinarith

/-- `(a + b) / |a - b|` for two numbers whose logarithms differ by `d`. -/
theorem condition_le {H L d : ℝ} (hH : 0 < H) (hL : 0 < L) (hd : 0 < d) (h : H = L * Real.exp d ∨ L = H * Real.exp d) :
    (H + L) / |H - L| ≤ 1 + 2 / d := by
  have key : ∀ a : ℝ, 0 < a → (a * Real.exp d + a) / |a * Real.exp d - a| ≤ 1 + 2 / d := by
    intro a ha
    have h1 := Real.add_one_le_exp d
    have h2 : 0 < Real.exp d - 1 := by linarith
    rw [show a * Real.exp d - a = a * (Real.exp d - 1) by ring, abs_of_pos (by positivity),
      show (a * Real.exp d + a) / (a * (Real.exp d - 1)) = 1 + 2 / (Real.exp d - 1) by field_simp; ring]
    have : 2 / (Real.exp d - 1) ≤ 2 / d := div_le_div_of_nonneg_left (by norm_num) hd (by linarith)
    linarith
  rcases h with rfl | rfl
  · exact key L hL
  · rw [add_comm, abs_sub_comm]; exact key H hH

theorem amplification_le {alpha low high : ℝ} (hl : 0 < low) (hlh : low < high) (hne : alpha ≠ -1) :
    amplification alpha low high ≤
      (1 + |1 + alpha| * Max.max |Real.log high| |Real.log low|) * (1 + 2 / (|1 + alpha| * Real.log (high / low))) := by
  have hh := hl.trans hlh
  have h2 := mul_nonneg (abs_nonneg (1 + alpha)) ((abs_nonneg (Real.log high)).trans (le_max_left _ |Real.log low|))
  have hd := Real.log_pos (by rwa [one_lt_div hl] : 1 < high / low)
  have hb : 1 + alpha ≠ 0 := fun hc => hne (by linarith)
  rw [amplification, if_neg hne]
  refine mul_le_mul_of_nonneg_left (condition_le (by positivity) (by positivity) (by positivity) ?_) (by linarith)
  rw [Real.rpow_def_of_pos hh, Real.rpow_def_of_pos hl, ← Real.exp_add, ← Real.exp_add, Real.log_div hh.ne' hl.ne']
  rcases le_total 0 (1 + alpha) with hc | hc
  · left; congr 1; rw [abs_of_nonneg hc]; ring
  · right; congr 1; rw [abs_of_nonpos hc]; ring

end GW.RoundedPowerLaw
