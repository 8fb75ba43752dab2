import Verif.Lemmas.Variation
import Verif.Lemmas.PlanckSlope
import Verif.Props.SmoothedDensity

/-! Bounds on the variation of the primary-mass laws and of the mass-ratio curve, and the error of the tabulated normalisations. -/

namespace GW
open Set MeasureTheory ProbabilityTheory
open scoped Classical

/-- On `s` no value lies below both a value to its left and a value to its right. -/
def Peaked (g : ℝ → ℝ) (s : Set ℝ) : Prop := ∀ x ∈ s, ∀ z ∈ s, ∀ y, x ≤ y → y ≤ z → min (g x) (g z) ≤ g y

theorem Peaked.varLe {g f : ℝ → ℝ} {s : Set ℝ} (hs : s.OrdConnected) (hg : Peaked g s) (hf : ∀ x ∈ s, f x = g x) (hf0 : ∀ x, x ∉ s → f x = 0) {a b B : ℝ} (hB : 0 ≤ B)
    (h0 : ∀ x, 0 ≤ f x) (h1 : ∀ x, a ≤ x → x ≤ b → f x ≤ B) : VarLe f a b (2 * B) := by
  have hq : ∀ x y z, x ≤ y → y ≤ z → min (f x) (f z) ≤ f y := by
    intro x y z hxy hyz
    by_cases hx : x ∈ s
    · by_cases hz : z ∈ s
      · rw [hf x hx, hf z hz, hf y (hs.out hx hz ⟨hxy, hyz⟩)]
        exact hg x hx z hz y hxy hyz
      · exact (min_le_right _ _).trans ((hf0 z hz).le.trans (h0 y))
    · exact (min_le_left _ _).trans ((hf0 x hx).le.trans (h0 y))
  refine ⟨by linarith, fun n u hu hm => ?_⟩
  obtain ⟨k, hk, hmax⟩ := Finset.exists_max_image (Finset.range (n + 1)) (fun i => f (u i)) ⟨0, by simp⟩
  have hkn : k ≤ n := by simpa [Nat.lt_succ_iff] using hk
  have up : ∀ i < k, f (u i) ≤ f (u (i + 1)) := by
    intro i hi
    have := hq (u i) (u (i + 1)) (u k) (hu (Nat.le_succ i)) (hu hi)
    rwa [min_eq_left (hmax i (by simp; omega))] at this
  have down : ∀ i, k ≤ i → i < n → f (u (i + 1)) ≤ f (u i) := by
    intro i hi hin
    have := hq (u k) (u i) (u (i + 1)) (hu hi) (hu (Nat.le_succ i))
    rwa [min_eq_right (hmax (i + 1) (by simp; omega))] at this
  rw [← Finset.sum_range_add_sum_Ico _ hkn]
  have e1 : ∑ i ∈ Finset.range k, |f (u (i + 1)) - f (u i)| = f (u k) - f (u 0) := by
    rw [← Finset.sum_range_sub (fun i => f (u i))]
    exact Finset.sum_congr rfl fun i hi => abs_of_nonneg (sub_nonneg.2 (up i (Finset.mem_range.1 hi)))
  have e2 : ∑ i ∈ Finset.Ico k n, |f (u (i + 1)) - f (u i)| = f (u k) - f (u n) := by
    rw [← neg_sub, ← Finset.sum_Ico_sub (fun i => f (u i)) hkn, ← Finset.sum_neg_distrib]
    refine Finset.sum_congr rfl fun i hi => abs_of_nonpos (sub_nonpos.2 (down i ?_ ?_))
    · exact (Finset.mem_Ico.1 hi).1
    · exact (Finset.mem_Ico.1 hi).2
  rw [e1, e2]
  have := h1 _ (hm k).1 (hm k).2
  have := h0 (u 0)
  have := h0 (u n)
  linarith

theorem peaked_rpow (α k : ℝ) (hk : 0 ≤ k) {s : Set ℝ} (hs : ∀ x ∈ s, 0 < x) : Peaked (fun x => k * x ^ α) s := by
  intro x hx z hz y hxy hyz
  have hx0 := hs x hx
  rcases le_total 0 α with h | h
  · exact (min_le_left _ _).trans (mul_le_mul_of_nonneg_left (Real.rpow_le_rpow hx0.le hxy h) hk)
  · exact (min_le_right _ _).trans (mul_le_mul_of_nonneg_left (Real.rpow_le_rpow_of_nonpos (by linarith) hyz h) hk)

theorem peaked_gauss (loc : ℝ) (v : NNReal) (k : ℝ) (hk : 0 ≤ k) (s : Set ℝ) : Peaked (fun x => k * gaussianPDFReal loc v x) s := by
  have key : ∀ x y, |y - loc| ≤ |x - loc| → k * gaussianPDFReal loc v x ≤ k * gaussianPDFReal loc v y := by
    intro x y h
    refine mul_le_mul_of_nonneg_left ?_ hk
    unfold gaussianPDFReal
    refine mul_le_mul_of_nonneg_left (Real.exp_le_exp.2 ?_) (by positivity)
    have := sq_le_sq.2 h
    exact div_le_div_of_nonneg_right (by linarith) (by positivity)
  intro x _ z _ y hxy hyz
  rcases le_total y loc with h | h
  · refine (min_le_left _ _).trans (key x y ?_)
    rw [abs_of_nonpos (by linarith), abs_of_nonpos (by linarith)]
    linarith
  · refine (min_le_right _ _).trans (key z y ?_)
    rw [abs_of_nonneg (by linarith), abs_of_nonneg (by linarith)]
    linarith

/-- The window over a positive width varies by at most one. -/
theorem varLe_window (lo w a b : ℝ) (hw : 0 < w) : VarLe (fun m => planckTaper ((m - lo) / w)) a b 1 :=
  VarLe.mono zero_le_one (fun x _ y _ h => planck_mono (div_le_div_of_nonneg_right (by linarith) hw.le)) (fun _ _ _ => planck_ge_zero _) fun _ _ _ => planck_le_one _

/-- A bounded curve of variation `V` under the window. -/
theorem VarLe.windowed {f : ℝ → ℝ} {a b V B : ℝ} (h : VarLe f a b V) (hB : 0 ≤ B) (hb : ∀ x, a ≤ x → x ≤ b → |f x| ≤ B) (lo : ℝ) {w : ℝ} (hw : 0 < w) :
    VarLe (fun m => f m * planckTaper ((m - lo) / w)) a b (V + B) :=
  (h.mul (varLe_window lo w a b hw) hB zero_le_one hb fun x _ _ => by rw [abs_of_nonneg (planck_ge_zero _)]; exact planck_le_one _).le (by linarith)

/-! ## The mass ratio -/

/-- The largest value of `q ^ β` on `[q₀, 1]`. -/
theorem rpow_le_max {q₀ q β : ℝ} (h0 : 0 < q₀) (h1 : q₀ ≤ q) (h2 : q ≤ 1) : q ^ β ≤ max 1 (q₀ ^ β) := by
  rcases le_total 0 β with h | h
  · exact (Real.rpow_le_one (by linarith) h2 h).trans (le_max_left _ _)
  · exact (Real.rpow_le_rpow_of_nonpos h0 h1 h).trans (le_max_right _ _)

section Ratio
variable {β m2 w hi : ℝ}

/-- The mass-ratio curve. -/
noncomputable def curve (β m2 w m q : ℝ) : ℝ := q ^ β * planckTaper ((m * q - m2) / w)

theorem curve_zero (hw : 0 < w) {m q : ℝ} (h : m * q ≤ m2) : curve β m2 w m q = 0 := by
  unfold curve
  rw [(Num.C25_window_shape.1 _).2 (div_nonpos_of_nonpos_of_nonneg (by linarith) hw.le), mul_zero]

theorem curve_nonneg {m q : ℝ} (hq : 0 ≤ q) : 0 ≤ curve β m2 w m q := mul_nonneg (Real.rpow_nonneg hq _) (planck_ge_zero _)

/-- Where the ratio is too small for the secondary the curve vanishes; elsewhere the power is bounded. -/
theorem curve_cases (hw : 0 < w) (h2 : 0 < m2) (hhi : 0 < hi) {m : ℝ} (hm0 : 0 ≤ m) (hm : m ≤ hi) (q : ℝ) (hq : 0 ≤ q) (hq1 : q ≤ 1) :
    (curve β m2 w m q = 0 ∧ q < m2 / hi) ∨ (m2 / hi ≤ q ∧ q ^ β ≤ max 1 ((m2 / hi) ^ β)) := by
  rcases lt_or_ge q (m2 / hi) with h | h
  · left
    refine ⟨curve_zero hw ?_, h⟩
    rw [lt_div_iff₀ hhi] at h
    nlinarith
  · exact .inr ⟨h, rpow_le_max (div_pos h2 hhi) h hq1⟩

theorem curve_le (hw : 0 < w) (h2 : 0 < m2) (hhi : 0 < hi) {m : ℝ} (hm0 : 0 ≤ m) (hm : m ≤ hi) {q : ℝ} (hq : 0 ≤ q) (hq1 : q ≤ 1) :
    curve β m2 w m q ≤ max 1 ((m2 / hi) ^ β) * planckTaper ((m * q - m2) / w) := by
  rcases curve_cases (β := β) hw h2 hhi hm0 hm q hq hq1 with ⟨h, -⟩ | ⟨-, h⟩
  · rw [h]
    exact mul_nonneg (zero_le_one.trans (le_max_left _ _)) (planck_ge_zero _)
  · exact mul_le_mul_of_nonneg_right h (planck_ge_zero _)

theorem varLe_curve (hw : 0 < w) (h2 : 0 < m2) (hhi : 0 < hi) {m : ℝ} (hm0 : 0 ≤ m) (hm : m ≤ hi) : VarLe (curve β m2 w m) 0 1 (3 * max 1 ((m2 / hi) ^ β)) := by
  set G := max 1 ((m2 / hi) ^ β) with hG
  have hG0 : 0 ≤ G := zero_le_one.trans (le_max_left _ _)
  set s : Set ℝ := Icc (m2 / hi) 1 with hs
  set p : ℝ → ℝ := fun q => if q ∈ s then q ^ β else 0 with hp
  have hpos : ∀ x ∈ s, 0 < x := fun x hx => (div_pos h2 hhi).trans_le hx.1
  have hp0 : ∀ x, 0 ≤ p x := by
    intro x
    by_cases hx : x ∈ s
    · rw [hp]; simp only [hx, if_true]; exact Real.rpow_nonneg (hpos x hx).le _
    · rw [hp]; simp [hx]
  have hp1 : ∀ x, 0 ≤ x → x ≤ 1 → p x ≤ G := by
    intro x _ hx1
    by_cases hx : x ∈ s
    · rw [hp]; simp only [hx, if_true]; exact rpow_le_max (div_pos h2 hhi) hx.1 hx.2
    · rw [hp]; simp only [hx, if_false]; exact hG0
  have hv : VarLe p 0 1 (2 * G) := Peaked.varLe (g := fun x => 1 * x ^ β) (s := s) ordConnected_Icc (peaked_rpow β 1 zero_le_one hpos)
    (fun x hx => by rw [hp]; simp [hx]) (fun x hx => by rw [hp]; simp [hx]) hG0 hp0 hp1
  have hwin : VarLe (fun q => planckTaper ((m * q - m2) / w)) 0 1 1 :=
    VarLe.mono zero_le_one (fun x _ y _ h => planck_mono (div_le_div_of_nonneg_right (by nlinarith) hw.le)) (fun _ _ _ => planck_ge_zero _) fun _ _ _ => planck_le_one _
  have := hv.mul hwin hG0 zero_le_one (fun x hx hx' => by rw [abs_of_nonneg (hp0 x)]; exact hp1 x hx hx') fun x _ _ => by rw [abs_of_nonneg (planck_ge_zero _)]; exact planck_le_one _
  refine (this.le (by linarith)).congr fun q hq hq1 => ?_
  rcases curve_cases (β := β) hw h2 hhi hm0 hm q hq hq1 with ⟨h, h'⟩ | ⟨h, -⟩
  · have : q ∉ s := fun hx => absurd hx.1 (not_le.2 h')
    rw [h, hp]
    simp [this]
  · have : q ∈ s := ⟨h, hq1⟩
    rw [hp]
    simp [this, curve]

/-- The table of normalisations. -/
noncomputable def table (β m2 w m : ℝ) : ℝ := trapz (curve β m2 w m) 0.005 1 500

theorem node_mem {a b : ℝ} (hab : a ≤ b) {n : ℕ} (hn : 2 ≤ n) {i : ℕ} (hi : i ≤ n - 1) : a ≤ node a b n i ∧ node a b n i ≤ b :=
  ⟨(node_first a b n).symm.le.trans (node_mono hab n (Nat.zero_le i)), (node_mono hab n hi).trans (node_final a b hn).le⟩

theorem trapz_sub_le {f g : ℝ → ℝ} {a b K : ℝ} (hab : a ≤ b) {n : ℕ} (hn : 2 ≤ n) (h : ∀ x, a ≤ x → x ≤ b → f x - g x ≤ K) : trapz f a b n - trapz g a b n ≤ (b - a) * K := by
  unfold trapz
  rw [← Finset.sum_sub_distrib]
  calc ∑ j ∈ Finset.range (n - 1), ((node a b n (j + 1) - node a b n j) * (f (node a b n (j + 1)) + f (node a b n j)) / 2 -
          (node a b n (j + 1) - node a b n j) * (g (node a b n (j + 1)) + g (node a b n j)) / 2)
      ≤ ∑ j ∈ Finset.range (n - 1), (node a b n (j + 1) - node a b n j) * K := by
        refine Finset.sum_le_sum fun j hj => ?_
        have hj := Finset.mem_range.1 hj
        have h1 := node_mem hab hn (i := j) (by omega)
        have h2 := node_mem hab hn (i := j + 1) (by omega)
        have e1 := h _ h1.1 h1.2
        have e2 := h _ h2.1 h2.2
        have hp : 0 ≤ node a b n (j + 1) - node a b n j := sub_nonneg.2 (node_mono hab n (Nat.le_succ j))
        nlinarith
    _ = (b - a) * K := by rw [← Finset.sum_mul, Finset.sum_range_sub (node a b n), node_first, node_final a b hn]

theorem trapz_mono {f g : ℝ → ℝ} {a b : ℝ} (hab : a ≤ b) {n : ℕ} (hn : 2 ≤ n) (h : ∀ x, a ≤ x → x ≤ b → f x ≤ g x) : trapz f a b n ≤ trapz g a b n := by
  have := trapz_sub_le (f := f) (g := g) (K := 0) hab hn fun x hx hx' => by linarith [h x hx hx']
  linarith

theorem table_mono (hw : 0 < w) {m m' : ℝ} (h : m ≤ m') : table β m2 w m ≤ table β m2 w m' := by
  refine trapz_mono (by norm_num) (by norm_num) fun q hq _ => ?_
  have hq0 : 0 ≤ q := by linarith
  exact mul_le_mul_of_nonneg_left (planck_mono (div_le_div_of_nonneg_right (by nlinarith) hw.le)) (Real.rpow_nonneg hq0 _)

theorem table_slope (hw : 0 < w) (h2 : 0 < m2) (hhi : 0 < hi) {m m' : ℝ} (hm0 : 0 ≤ m) (h : m ≤ m') (hm : m' ≤ hi) :
    table β m2 w m' - table β m2 w m ≤ (1 - 0.005) * (max 1 ((m2 / hi) ^ β) * (2 * (m' - m) / w)) := by
  have hG0 : 0 ≤ max 1 ((m2 / hi) ^ β) := zero_le_one.trans (le_max_left _ _)
  refine trapz_sub_le (by norm_num) (by norm_num) fun q hq hq1 => ?_
  have hq0 : 0 ≤ q := by linarith
  have hS : planckTaper ((m' * q - m2) / w) - planckTaper ((m * q - m2) / w) ≤ 2 * (m' - m) / w := by
    refine (planck_slope (div_le_div_of_nonneg_right (by nlinarith) hw.le)).trans ?_
    rw [← sub_div, ← mul_div_assoc]
    exact div_le_div_of_nonneg_right (by nlinarith) hw.le
  have hS0 : 0 ≤ planckTaper ((m' * q - m2) / w) - planckTaper ((m * q - m2) / w) := sub_nonneg.2 (planck_mono (div_le_div_of_nonneg_right (by nlinarith) hw.le))
  rcases curve_cases (β := β) hw h2 hhi (hm0.trans h) hm q hq0 hq1 with ⟨e, -⟩ | ⟨-, e⟩
  · rw [e]
    have := curve_nonneg (β := β) (m2 := m2) (w := w) (m := m) hq0
    have : 0 ≤ max 1 ((m2 / hi) ^ β) * (2 * (m' - m) / w) := mul_nonneg hG0 (hS0.trans hS)
    linarith
  · calc curve β m2 w m' q - curve β m2 w m q = q ^ β * (planckTaper ((m' * q - m2) / w) - planckTaper ((m * q - m2) / w)) := by unfold curve; ring
      _ ≤ max 1 ((m2 / hi) ^ β) * (2 * (m' - m) / w) := mul_le_mul e hS hS0 hG0

/-- The curve below the grid. -/
theorem integral_below (hw : 0 < w) {m : ℝ} (hm0 : 0 ≤ m) (hgrid : 0.005 * m ≤ m2) : ∫ q in (0 : ℝ)..0.005, curve β m2 w m q = 0 := by
  refine intervalIntegral.integral_zero_ae (Filter.Eventually.of_forall fun q hq => ?_)
  rw [uIoc_of_le (by norm_num)] at hq
  exact curve_zero hw (by nlinarith [hq.2])

/-- The tabulated normalisation against the exact one. -/
theorem interp_error (hw : 0 < w) (h2 : 0 < m2) {lo : ℝ} (hlo : 0 ≤ lo) (hlh : lo < hi) (hgrid : 0.005 * hi ≤ m2) {m v : ℝ} (h1 : lo ≤ m) (h1' : m ≤ hi)
    (h : Interpolates (table β m2 w) lo hi 1000 m v) :
    |v - ∫ q in (0 : ℝ)..1, curve β m2 w m q| ≤ max 1 ((m2 / hi) ^ β) * (0.003 + 0.002 * ((hi - lo) / w)) := by
  set G := max 1 ((m2 / hi) ^ β) with hG
  have hG0 : 0 ≤ G := zero_le_one.trans (le_max_left _ _)
  have hhi : 0 < hi := by linarith
  have hm0 : 0 ≤ m := hlo.trans h1
  have hv := varLe_curve (β := β) hw h2 hhi hm0 h1'
  have e1 : ∫ q in (0 : ℝ)..1, curve β m2 w m q = ∫ q in (0.005 : ℝ)..1, curve β m2 w m q := by
    rw [← intervalIntegral.integral_add_adjacent_intervals ((hv.restrict le_rfl (by norm_num)).intervalIntegrable (by norm_num))
      ((hv.restrict (by norm_num) le_rfl).intervalIntegrable (b := 1) (a := (0.005 : ℝ)) (by norm_num)), integral_below hw hm0 (by nlinarith), zero_add]
  have e2 : |table β m2 w m - ∫ q in (0.005 : ℝ)..1, curve β m2 w m q| ≤ 0.003 * G := by
    refine (trapz_error (n := 500) (by norm_num) (by norm_num) (hv.restrict (by norm_num) le_rfl)).trans ?_
    rw [← hG]
    norm_num
    nlinarith
  obtain ⟨i, hi1, n1, n2, rfl⟩ := h
  set x := node lo hi 1000 i with hx
  set y := node lo hi 1000 (i + 1) with hy
  have hstep : y - x = (hi - lo) / 999 := by
    have := node_succ_sub lo hi 1000 i
    rw [hy, hx, this]
    norm_num
  have hxy : 0 < y - x := by rw [hstep]; apply div_pos (by linarith) (by norm_num)
  have hx0 := node_mem hlh.le (n := 1000) (by norm_num) (i := i) (by omega)
  have hy0 := node_mem hlh.le (n := 1000) (by norm_num) (i := i + 1) (by omega)
  have hs := table_slope (β := β) hw h2 hhi (m := x) (m' := y) (by linarith [hx0.1]) (by linarith) hy0.2
  rw [← hG, hstep] at hs
  have t1 := table_mono (β := β) (m2 := m2) hw n1
  have t2 := table_mono (β := β) (m2 := m2) hw n2
  set r := (m - x) / (y - x) with hr
  have r0 : 0 ≤ r := div_nonneg (by linarith) hxy.le
  have r1 : r ≤ 1 := (div_le_one hxy).2 (by linarith)
  have e3 : |table β m2 w x + r * (table β m2 w y - table β m2 w x) - table β m2 w m| ≤ G * (0.002 * ((hi - lo) / w)) := by
    have hb : (1 - 0.005) * (G * (2 * ((hi - lo) / 999) / w)) ≤ G * (0.002 * ((hi - lo) / w)) := by
      have hp : 0 ≤ G * ((hi - lo) / w) := mul_nonneg hG0 (div_nonneg (by linarith) hw.le)
      have : (1 - 0.005) * (G * (2 * ((hi - lo) / 999) / w)) = (1 - 0.005) * 2 / 999 * (G * ((hi - lo) / w)) := by ring
      rw [this]
      norm_num
      nlinarith
    rw [abs_le]
    constructor <;> nlinarith
  rw [e1]
  have := abs_sub_le (table β m2 w x + r * (table β m2 w y - table β m2 w x)) (table β m2 w m) (∫ q in (0.005 : ℝ)..1, curve β m2 w m q)
  calc _ ≤ _ := this
    _ ≤ G * (0.002 * ((hi - lo) / w)) + 0.003 * G := add_le_add e3 e2
    _ = _ := by ring

/-- The table is positive wherever an equal-mass secondary is heavy enough. -/
theorem table_pos (hw : 0 < w) {m : ℝ} (h : m2 < m) : 0 < table β m2 w m := by
  unfold table trapz
  rw [show 500 - 1 = 498 + 1 from rfl, Finset.sum_range_succ]
  have hmono := node_mono (show (0.005 : ℝ) ≤ 1 by norm_num) 500
  have hnn : ∀ i, 0 ≤ curve β m2 w m (node 0.005 1 500 i) := fun i =>
    curve_nonneg (le_trans (by norm_num) ((node_first 0.005 1 500).symm.le.trans (hmono (Nat.zero_le i))))
  refine add_pos_of_nonneg_of_pos (Finset.sum_nonneg fun j _ => ?_) ?_
  · exact div_nonneg (mul_nonneg (sub_nonneg.2 (hmono (Nat.le_succ j))) (add_nonneg (hnn _) (hnn _))) (by norm_num)
  · rw [show 498 + 1 = 500 - 1 from rfl, node_final _ _ (by norm_num)]
    have h1 : 0 < curve β m2 w m 1 := by
      unfold curve
      rw [Real.one_rpow, one_mul, mul_one]
      have := (Num.C25_window_shape.1 ((m - m2) / w)).not.2 (not_le.2 (div_pos (by linarith) hw))
      exact lt_of_le_of_ne (planck_ge_zero _) (Ne.symm this)
    have hs := node_succ_sub (0.005 : ℝ) 1 500 498
    rw [show 498 + 1 = 500 - 1 from rfl, node_final _ _ (by norm_num)] at hs
    rw [hs]
    have := hnn 498
    have hst : (0 : ℝ) < (1 - 0.005) / ((500 - 1 : ℕ) : ℝ) := by norm_num
    positivity

theorem interp_pos (hw : 0 < w) {lo : ℝ} (hlh : lo < hi) {m v : ℝ} (hm : m2 < m) (h : Interpolates (table β m2 w) lo hi 1000 m v) : 0 < v := by
  obtain ⟨i, hi1, n1, n2, rfl⟩ := h
  set x := node lo hi 1000 i with hx
  set y := node lo hi 1000 (i + 1) with hy
  have hstep : y - x = (hi - lo) / 999 := by
    have := node_succ_sub lo hi 1000 i
    rw [hy, hx, this]
    norm_num
  have hxy : 0 < y - x := by rw [hstep]; apply div_pos (by linarith) (by norm_num)
  have hty : 0 < table β m2 w y := table_pos hw (by linarith)
  have htx : 0 ≤ table β m2 w x := Mass.trapz_nonneg (by norm_num) (by norm_num) fun q hq _ => curve_nonneg (by linarith)
  rcases n1.eq_or_lt with e | e
  · rw [e, sub_self, zero_div, zero_mul, add_zero]
    exact table_pos hw hm
  · have r0 : 0 < (m - x) / (y - x) := div_pos (by linarith) hxy
    have r1 : (m - x) / (y - x) ≤ 1 := (div_le_one hxy).2 (by linarith)
    nlinarith

end Ratio

end GW
