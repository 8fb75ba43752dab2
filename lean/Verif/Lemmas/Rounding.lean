import Verif.Model.Rounding
import Mathlib.Data.Set.Finite.Lattice
import Mathlib.Data.Int.Interval
import Mathlib.Tactic.Linarith
import Mathlib.Tactic.NormNum
import Mathlib.Tactic.Positivity
import Mathlib.Tactic.FieldSimp
import Mathlib.Algebra.Order.Archimedean.Basic

/-!
# Facts about rounding to nearest
-/

namespace GW.Rounding
open GW XR

variable {f : Format} {fl : ℝ → XR}

theorem mem_int (hf : f.Usable) (n : ℤ) (h : |n| < 8) : f.Mem n := by
  refine ⟨n, 0, lt_of_lt_of_le h ?_, by linarith [hf.2.1], hf.2.2, by simp⟩
  have : (2 : ℤ) ^ 3 ≤ 2 ^ f.p := pow_le_pow_right₀ (by norm_num) hf.1
  linarith

theorem mem_zero (hf : f.Usable) : f.Mem 0 := by simpa using mem_int hf 0 (by norm_num)
theorem mem_one (hf : f.Usable) : f.Mem 1 := by simpa using mem_int hf 1 (by norm_num)
theorem mem_half (hf : f.Usable) : f.Mem (1 / 2) := by
  refine ⟨1, -1, ?_, by linarith [hf.2.1], by linarith [hf.2.2], by norm_num⟩
  have : (2 : ℤ) ^ 3 ≤ 2 ^ f.p := pow_le_pow_right₀ (by norm_num) hf.1
  norm_num
  linarith
theorem mem_quarter (hf : f.Usable) : f.Mem (1 / 4) := by
  refine ⟨1, -2, ?_, by linarith [hf.2.1], by linarith [hf.2.2], by norm_num⟩
  have : (2 : ℤ) ^ 3 ≤ 2 ^ f.p := pow_le_pow_right₀ (by norm_num) hf.1
  norm_num
  linarith

theorem Format.Mem.neg {x : ℝ} (h : f.Mem x) : f.Mem (-x) := by
  obtain ⟨n, k, h1, h2, h3, h4⟩ := h
  exact ⟨-n, k, by simpa using h1, h2, h3, by rw [h4]; push_cast; ring⟩

theorem limit_pos (f : Format) : 0 < f.limit := by
  have : (1 : ℝ) ≤ 2 ^ f.p := one_le_pow₀ (by norm_num)
  exact mul_pos (by linarith) (by positivity)

theorem mem_abs_lt {x : ℝ} (h : f.Mem x) : |x| < f.limit := by
  obtain ⟨n, k, h1, h2, h3, rfl⟩ := h
  have h5 : |(n : ℝ)| ≤ 2 ^ f.p - 1 := by
    have : |n| ≤ 2 ^ f.p - 1 := by omega
    have := (Int.cast_le (R := ℝ)).2 this
    push_cast at this
    exact this
  have h6 : (2 : ℝ) ^ k ≤ 2 ^ f.emax := zpow_le_zpow_right₀ (by norm_num) h3
  have h7 : (0 : ℝ) < 2 ^ k := by positivity
  rw [abs_mul, abs_of_pos h7, Format.limit]
  have h8 : (0 : ℝ) < 2 ^ f.emax := by positivity
  nlinarith [abs_nonneg (n : ℝ)]

/-- A number of the format is its own rounding. -/
theorem Nearest.exact (h : Nearest f fl) {x : ℝ} (hx : f.Mem x) : fl x = fin x := by
  obtain ⟨y, h1, _, h3⟩ := h.inside x (mem_abs_lt hx)
  have := h3 x hx
  simp only [sub_self, abs_zero, abs_nonpos_iff] at this
  rw [h1, show y = x by linarith]

theorem Nearest.ne_nan (h : Nearest f fl) (x : ℝ) : fl x ≠ nan := by
  by_cases h1 : |x| < f.limit
  · obtain ⟨y, h2, _⟩ := h.inside x h1
    rw [h2]; simp
  · rcases le_abs.1 (not_lt.1 h1) with h2 | h2
    · rw [h.above x h2]; simp
    · rw [h.below x (by linarith)]; simp

/-- Rounding keeps the order. -/
theorem Nearest.mono (h : Nearest f fl) {x y : ℝ} (hxy : x ≤ y) : le (fl x) (fl y) := by
  have hl := limit_pos f
  rcases lt_or_ge x f.limit with hx | hx
  swap
  · rw [h.above x hx, h.above y (by linarith)]; trivial
  rcases lt_or_ge (-f.limit) y with hy | hy
  swap
  · rw [h.below y hy, h.below x (by linarith)]; trivial
  rcases lt_or_ge (-f.limit) x with hx' | hx'
  swap
  · rw [h.below x hx']
    have := h.ne_nan y
    revert this
    cases fl y <;> simp [le]
  rcases lt_or_ge y f.limit with hy' | hy'
  swap
  · rw [h.above y hy']
    have := h.ne_nan x
    revert this
    cases fl x <;> simp [le]
  obtain ⟨a, ha, hma, hna⟩ := h.inside x (abs_lt.2 ⟨hx', hx⟩)
  obtain ⟨b, hb, hmb, hnb⟩ := h.inside y (abs_lt.2 ⟨hy, hy'⟩)
  rw [ha, hb]
  show a ≤ b
  by_contra hab
  have hab := not_le.1 hab
  have h1 := hna b hmb
  have h2 := hnb a hma
  have h3 : (a + b) / 2 ≤ x := by
    rcases abs_cases (x - a) with ⟨e1, _⟩ | ⟨e1, _⟩ <;> rcases abs_cases (x - b) with ⟨e2, _⟩ | ⟨e2, _⟩ <;> linarith
  have h4 : y ≤ (a + b) / 2 := by
    rcases abs_cases (y - a) with ⟨e1, _⟩ | ⟨e1, _⟩ <;> rcases abs_cases (y - b) with ⟨e2, _⟩ | ⟨e2, _⟩ <;> linarith
  have h5 : x = y := by linarith
  rw [h5, hb] at ha
  injection ha with h6
  linarith

/-- Between two numbers of the format the rounding stays between them. -/
theorem Nearest.between (h : Nearest f fl) {a b x : ℝ} (ha : f.Mem a) (hb : f.Mem b) (h1 : a ≤ x) (h2 : x ≤ b) :
    ∃ y, fl x = fin y ∧ f.Mem y ∧ a ≤ y ∧ y ≤ b := by
  have h3 := mem_abs_lt ha
  have h4 := mem_abs_lt hb
  have h5 : |x| < f.limit := by
    rw [abs_lt] at *
    constructor <;> linarith
  obtain ⟨y, hy, hm, _⟩ := h.inside x h5
  have h6 := h.mono h1
  have h7 := h.mono h2
  rw [h.exact ha, hy] at h6
  rw [h.exact hb, hy] at h7
  exact ⟨y, hy, hm, h6, h7⟩

/-- A result at least as large as a number of the format is not rounded below it. -/
theorem Nearest.ge (h : Nearest f fl) {a x : ℝ} (ha : f.Mem a) (h1 : a ≤ x) :
    fl x = pinf ∨ ∃ y, fl x = fin y ∧ f.Mem y ∧ a ≤ y := by
  rcases lt_or_ge x f.limit with hx | hx
  · have h3 := mem_abs_lt ha
    have h5 : |x| < f.limit := by
      rw [abs_lt] at *
      constructor <;> linarith
    obtain ⟨y, hy, hm, _⟩ := h.inside x h5
    have h6 := h.mono h1
    rw [h.exact ha, hy] at h6
    exact Or.inr ⟨y, hy, hm, h6⟩
  · exact Or.inl (h.above x hx)

theorem Nearest.le (h : Nearest f fl) {b x : ℝ} (hb : f.Mem b) (h1 : x ≤ b) :
    fl x = ninf ∨ ∃ y, fl x = fin y ∧ f.Mem y ∧ y ≤ b := by
  rcases lt_or_ge (-f.limit) x with hx | hx
  · have h3 := mem_abs_lt hb
    have h5 : |x| < f.limit := by
      rw [abs_lt] at *
      constructor <;> linarith
    obtain ⟨y, hy, hm, _⟩ := h.inside x h5
    have h6 := h.mono h1
    rw [h.exact hb, hy] at h6
    exact Or.inr ⟨y, hy, hm, h6⟩
  · exact Or.inl (h.below x hx)

/-- A finite rounding is a number of the format. -/
theorem Nearest.mem (h : Nearest f fl) {x y : ℝ} (hy : fl x = fin y) : f.Mem y := by
  by_cases h1 : |x| < f.limit
  · obtain ⟨z, h2, h3, _⟩ := h.inside x h1
    rw [hy] at h2
    injection h2 with h2
    rwa [h2]
  · rcases le_abs.1 (not_lt.1 h1) with h2 | h2
    · rw [h.above x h2] at hy; cases hy
    · rw [h.below x (by linarith)] at hy; cases hy

/-- Rounding never crosses zero: a magnitude bound by a number of the format is kept. -/
theorem Nearest.abs_le (h : Nearest f fl) {b x : ℝ} (hb : f.Mem b) (h1 : |x| ≤ b) : ∃ y, fl x = fin y ∧ f.Mem y ∧ |y| ≤ b := by
  obtain ⟨h2, h3⟩ := _root_.abs_le.1 h1
  obtain ⟨y, hy, hm, h4, h5⟩ := h.between hb.neg hb h2 h3
  exact ⟨y, hy, hm, _root_.abs_le.2 ⟨h4, h5⟩⟩

/-- The only number of the format within half a unit of the last place of a number with all its bits in use. -/
theorem Nearest.eq_of_close (h : Nearest f fl) {x : ℝ} (n k : ℤ) (h0 : 1 ≤ f.p) (h1 : 2 ^ (f.p - 1) < n) (h2 : n < 2 ^ f.p) (h3 : f.emin ≤ k)
    (h4 : k ≤ f.emax) (h5 : |x - n * (2 : ℝ) ^ k| < 2 ^ k / 2) : fl x = fin (n * (2 : ℝ) ^ k) := by
  have hn0 : 0 < n := lt_trans (by positivity) h1
  have hm : f.Mem (n * (2 : ℝ) ^ k) := ⟨n, k, by rwa [abs_of_pos hn0], h3, h4, rfl⟩
  have hk : (0 : ℝ) < 2 ^ k := by positivity
  have hk2 : (2 : ℝ) ^ k ≤ 2 ^ f.emax := zpow_le_zpow_right₀ (by norm_num) h4
  have hnr : (n : ℝ) ≤ 2 ^ f.p - 1 := by
    have : n ≤ 2 ^ f.p - 1 := by omega
    have := (Int.cast_le (R := ℝ)).2 this
    push_cast at this
    exact this
  have hn1 : (1 : ℝ) ≤ n := by exact_mod_cast hn0
  have hx : |x| < f.limit := by
    obtain ⟨h6, h7⟩ := abs_lt.1 h5
    have h8 : 0 < x := by nlinarith
    rw [abs_of_pos h8, Format.limit]
    have h9 : x < (2 ^ f.p - 1 / 2) * 2 ^ k := by nlinarith
    have h10 : (1 : ℝ) ≤ 2 ^ f.p := one_le_pow₀ (by norm_num)
    nlinarith
  obtain ⟨y, hy, hmy, hny⟩ := h.inside x hx
  have h6 := hny _ hm
  have h7 : |y - n * (2 : ℝ) ^ k| < 2 ^ k := by
    have : |y - n * (2 : ℝ) ^ k| ≤ |x - y| + |x - n * (2 : ℝ) ^ k| := by
      have := abs_sub_le y x (n * (2 : ℝ) ^ k)
      rwa [abs_sub_comm y x] at this
    linarith
  rw [hy]
  obtain ⟨n', k', a1, a2, a3, rfl⟩ := hmy
  congr 1
  rcases le_or_gt k k' with hkk | hkk
  · obtain ⟨d, rfl⟩ := Int.le.dest hkk
    have e : (2 : ℝ) ^ (k + (d : ℤ)) = 2 ^ d * 2 ^ k := by
      rw [zpow_add₀ (by norm_num), zpow_natCast]; ring
    rw [e] at h7 ⊢
    have h8 : |((n' * 2 ^ d - n : ℤ) : ℝ)| < 1 := by
      have : ((n' : ℝ) * (2 ^ d * 2 ^ k) - n * 2 ^ k) = ((n' * 2 ^ d - n : ℤ) : ℝ) * 2 ^ k := by push_cast; ring
      rw [this, abs_mul, abs_of_pos hk] at h7
      nlinarith
    have h9 : n' * 2 ^ d - n = 0 := by
      have : |n' * 2 ^ d - n| < 1 := by exact_mod_cast h8
      exact Int.abs_lt_one_iff.1 this
    have h10 : n = n' * 2 ^ d := by linarith
    rw [h10]; push_cast; ring
  · exfalso
    have b1 : |(n' : ℝ)| < 2 ^ f.p := by
      have := (Int.cast_lt (R := ℝ)).2 a1
      push_cast at this
      exact this
    have b2 : (2 : ℝ) ^ k' ≤ 2 ^ (k - 1) := zpow_le_zpow_right₀ (by norm_num) (by omega)
    have b3 : (2 : ℝ) ^ (k - 1) = 2 ^ k / 2 := by rw [zpow_sub₀ (by norm_num)]; norm_num
    have b4 : (2 : ℝ) ^ f.p = 2 * 2 ^ (f.p - 1) := by
      rw [← pow_succ']; congr 1; omega
    have b5 : (2 : ℝ) ^ (f.p - 1) + 1 ≤ n := by exact_mod_cast h1
    have b6 : (0 : ℝ) < 2 ^ k' := by positivity
    have b7 : (n' : ℝ) * 2 ^ k' < 2 ^ (f.p - 1) * 2 ^ k := by
      have := le_abs_self (n' : ℝ)
      have c1 : (n' : ℝ) * 2 ^ k' < 2 ^ f.p * 2 ^ k' := by nlinarith
      have c2 : (2 : ℝ) ^ f.p * 2 ^ k' ≤ 2 ^ f.p * (2 ^ k / 2) := by
        rw [b3] at b2
        exact mul_le_mul_of_nonneg_left b2 (by positivity)
      rw [b4] at c1 c2
      linarith
    have := (abs_lt.1 h7).1
    nlinarith

theorem mem_finite (f : Format) : {x | f.Mem x}.Finite := by
  refine ((Set.finite_Icc (-(2 : ℤ) ^ f.p) (2 ^ f.p)).prod (Set.finite_Icc f.emin f.emax)).image (fun a => (a.1 : ℝ) * (2 : ℝ) ^ a.2) |>.subset ?_
  rintro x ⟨n, k, h1, h2, h3, rfl⟩
  exact ⟨(n, k), ⟨⟨by linarith [(abs_lt.1 h1).1], by linarith [(abs_lt.1 h1).2]⟩, h2, h3⟩, rfl⟩

/-- Every format has a rounding to nearest. -/
theorem exists_nearest (hf : f.Usable) : ∃ fl, Nearest f fl := by
  classical
  have h : ∀ x : ℝ, ∃ y, f.Mem y ∧ ∀ z, f.Mem z → |x - y| ≤ |x - z| := fun x => by
    obtain ⟨y, h1, h2⟩ := Set.exists_min_image {x | f.Mem x} (fun z => |x - z|) (mem_finite f) ⟨0, mem_zero hf⟩
    exact ⟨y, h1, h2⟩
  choose g hg1 hg2 using h
  have hl := limit_pos f
  have g0 : g 0 = 0 := by
    have := hg2 0 0 (mem_zero hf)
    simpa using this
  let s : ℝ → ℝ := fun x => if 0 ≤ x then g x else -g (-x)
  have s1 : ∀ x, f.Mem (s x) := fun x => by
    by_cases hx : 0 ≤ x
    · simp only [s, hx, if_true]; exact hg1 x
    · simp only [s, hx, if_false]; exact (hg1 (-x)).neg
  have s2 : ∀ x z, f.Mem z → |x - s x| ≤ |x - z| := fun x z hz => by
    by_cases hx : 0 ≤ x
    · simp only [s, hx, if_true]; exact hg2 x z hz
    · simp only [s, hx, if_false]
      have := hg2 (-x) (-z) hz.neg
      rwa [show -x - g (-x) = -(x - -g (-x)) by ring, show -x - -z = -(x - z) by ring, abs_neg, abs_neg] at this
  have s3 : ∀ x, s (-x) = -s x := fun x => by
    rcases lt_trichotomy x 0 with hx | rfl | hx
    · simp only [s, show 0 ≤ -x by linarith, if_true, not_le.2 hx, if_false, neg_neg]
    · simp [s, g0]
    · simp only [s, hx.le, if_true, show ¬ (0 ≤ -x) by linarith, if_false, neg_neg]
  refine ⟨fun x => if f.limit ≤ x then pinf else if x ≤ -f.limit then ninf else fin (s x), ?_, ?_, ?_, ?_⟩
  · intro x hx
    obtain ⟨h1, h2⟩ := abs_lt.1 hx
    exact ⟨s x, by simp only [not_le.2 h1, not_le.2 h2, if_false], s1 x, s2 x⟩
  · intro x hx
    simp only [hx, if_true]
  · intro x hx
    simp only [hx, if_true, not_le.2 (show x < f.limit by linarith), if_false]
  · intro x
    by_cases h1 : f.limit ≤ x
    · have h2 : ¬ (f.limit ≤ -x) := by linarith
      have h3 : -x ≤ -f.limit := by linarith
      simp only [h1, h2, h3, if_true, if_false]; rfl
    · by_cases h2 : x ≤ -f.limit
      · have h3 : f.limit ≤ -x := by linarith
        simp only [h1, h2, h3, if_true, if_false]; rfl
      · have h3 : ¬ (f.limit ≤ -x) := by linarith
        have h4 : ¬ (-x ≤ -f.limit) := by linarith
        simp only [h1, h2, h3, h4, if_false, s3]; rfl

/-- In the range of full precision the rounding is off by at most `2^-p`, relatively. -/
theorem Nearest.rel (h : Nearest f fl) (hp : 2 ≤ f.p) {x : ℝ} (h1 : (2 : ℝ) ^ (f.emin + f.p - 1) ≤ x) (h2 : x ≤ (2 : ℝ) ^ f.emax) :
    ∃ y, fl x = fin y ∧ f.Mem y ∧ |y - x| ≤ x / 2 ^ f.p := by
  have hx : 0 < x := lt_of_lt_of_le (by positivity) h1
  obtain ⟨e, he1, he2⟩ := exists_mem_Ico_zpow (y := (2 : ℝ)) hx (by norm_num)
  set k : ℤ := e - f.p + 1 with hk
  have hkp : (0 : ℝ) < 2 ^ k := by positivity
  have hek : (2 : ℝ) ^ e = 2 ^ (f.p - 1) * 2 ^ k := by
    rw [← zpow_natCast, ← zpow_add₀ (by norm_num)]
    congr 1
    rw [hk]; push_cast [Nat.cast_sub (show 1 ≤ f.p by omega)]; ring
  have hpp : (2 : ℝ) ^ f.p = 2 * 2 ^ (f.p - 1) := by
    rw [← pow_succ']; congr 1; omega
  have he3 : (2 : ℝ) ^ (e + 1) = 2 ^ f.p * 2 ^ k := by
    rw [zpow_add₀ (by norm_num), hek, hpp]; norm_num; ring
  have hemax : e ≤ f.emax := by
    by_contra hc
    have : (2 : ℝ) ^ (f.emax + 1) ≤ 2 ^ e := zpow_le_zpow_right₀ (by norm_num) (by omega)
    have h3 : (2 : ℝ) ^ f.emax < 2 ^ (f.emax + 1) := zpow_lt_zpow_right₀ (by norm_num) (by omega)
    linarith
  have hemin : f.emin ≤ k := by
    by_contra hc
    have : (2 : ℝ) ^ (e + 1) ≤ 2 ^ (f.emin + f.p - 1) := zpow_le_zpow_right₀ (by norm_num) (by omega)
    linarith
  set n : ℤ := ⌊x / 2 ^ k⌋ with hn
  have n1 : (n : ℝ) ≤ x / 2 ^ k := Int.floor_le _
  have n2 : x / 2 ^ k < n + 1 := Int.lt_floor_add_one _
  have n1' : (n : ℝ) * 2 ^ k ≤ x := (le_div_iff₀ hkp).1 n1
  have n2' : x < (n + 1) * 2 ^ k := (div_lt_iff₀ hkp).1 n2
  have n3 : (2 : ℤ) ^ (f.p - 1) ≤ n := by
    rw [hn, Int.le_floor]
    push_cast
    rw [le_div_iff₀ hkp, ← hek]; exact he1
  have n4 : n < 2 ^ f.p := by
    rw [hn, Int.floor_lt]
    push_cast
    rw [div_lt_iff₀ hkp, ← he3]; exact he2
  have n0 : 0 ≤ n := le_trans (by positivity) n3
  have m1 : f.Mem ((n : ℝ) * 2 ^ k) := ⟨n, k, by rwa [abs_of_nonneg n0], hemin, by omega, rfl⟩
  have m2 : f.Mem (((n : ℝ) + 1) * 2 ^ k) := by
    rcases lt_or_eq_of_le (show n + 1 ≤ 2 ^ f.p by omega) with h6 | h6
    · exact ⟨n + 1, k, by rwa [abs_of_nonneg (by omega)], hemin, by omega, by push_cast; ring⟩
    · refine ⟨2 ^ (f.p - 1), k + 1, ?_, by omega, by omega, ?_⟩
      · rw [abs_of_nonneg (by positivity)]
        exact pow_lt_pow_right₀ (by norm_num) (by omega)
      · have : (n : ℝ) + 1 = 2 ^ f.p := by exact_mod_cast h6
        rw [this, hpp, zpow_add₀ (by norm_num) k 1, zpow_one]; push_cast; ring
  obtain ⟨y, hy, hym, _, _⟩ := h.between m1 m2 n1' n2'.le
  obtain ⟨y', hy', _, hyn⟩ := h.inside x (by
    have a := mem_abs_lt m1
    have b := mem_abs_lt m2
    rw [abs_lt] at *
    constructor <;> linarith)
  rw [hy] at hy'
  injection hy' with hyy
  subst hyy
  refine ⟨y, hy, hym, ?_⟩
  have b1 := hyn _ m1
  have b2 := hyn _ m2
  rw [abs_of_nonneg (show 0 ≤ x - n * 2 ^ k by linarith)] at b1
  rw [abs_of_nonpos (show x - (n + 1) * 2 ^ k ≤ 0 by linarith)] at b2
  rw [abs_sub_comm]
  have b3 : |x - y| ≤ 2 ^ k / 2 := by linarith
  refine b3.trans ?_
  rw [le_div_iff₀ (by positivity)]
  have : (2 : ℝ) ^ k / 2 * 2 ^ f.p = 2 ^ e := by rw [hek, hpp]; ring
  rw [this]; exact he1

/-! ## The operations -/

theorem rd_fin (x : ℝ) : rd fl (fin x) = fl x := rfl

theorem rd_ne_nan (h : Nearest f fl) {x : XR} (hx : x ≠ nan) : rd fl x ≠ nan := by
  cases x with
  | fin a => exact h.ne_nan a
  | pinf => simp [rd]
  | ninf => simp [rd]
  | nan => exact absurd rfl hx

theorem sub_fin (a b : ℝ) : (fin a - fin b : XR) = fin (a - b) := by
  show XR.add (fin a) (XR.neg (fin b)) = _
  simp [XR.add, XR.neg, sub_eq_add_neg]

theorem add_fin (a b : ℝ) : (fin a + fin b : XR) = fin (a + b) := rfl
theorem mul_fin (a b : ℝ) : (fin a * fin b : XR) = fin (a * b) := rfl
theorem div_fin (a b : ℝ) (h : b ≠ 0) : (fin a / fin b : XR) = fin (a / b) := by
  show XR.div (fin a) (fin b) = _
  simp [XR.div, h]

@[simp] theorem add_def (a b : ℝ) : add fl (fin a) (fin b) = fl (a + b) := rfl
@[simp] theorem sub_def (a b : ℝ) : sub fl (fin a) (fin b) = fl (a - b) := by rw [sub, sub_fin]; rfl
@[simp] theorem mul_def (a b : ℝ) : mul fl (fin a) (fin b) = fl (a * b) := rfl
theorem div_def (a b : ℝ) (h : b ≠ 0) : div fl (fin a) (fin b) = fl (a / b) := by rw [div, div_fin a b h]; rfl

/-- `4 q - 1` is exact in the format for a mass ratio `q` between `1/4` and `1`. -/
theorem mem_four_mul_sub_one (hf : f.Usable) {q : ℝ} (hq : f.Mem q) (h1 : 1 / 4 ≤ q) (h2 : q ≤ 1) : f.Mem (4 * q - 1) := by
  obtain ⟨n, k, a1, a2, a3, rfl⟩ := hq
  have hk : (0 : ℝ) < 2 ^ k := by positivity
  have hn0 : 0 < n := by
    by_contra hc
    have : (n : ℝ) ≤ 0 := by exact_mod_cast not_lt.1 hc
    nlinarith
  have hn1 : (1 : ℝ) ≤ n := by exact_mod_cast hn0
  rcases le_or_gt k (-2) with h3 | h3
  · obtain ⟨d, hd⟩ := Int.eq_ofNat_of_zero_le (show 0 ≤ -k - 2 by omega)
    have e : (2 : ℝ) ^ k * (4 * 2 ^ d) = 1 := by
      have : k = -((d : ℤ) + 2) := by omega
      rw [this, zpow_neg, zpow_add₀ (by norm_num), zpow_natCast]
      field_simp
      norm_num
    have hnd : (2 : ℤ) ^ d ≤ n := by
      have : (2 : ℝ) ^ d ≤ n := by nlinarith
      exact_mod_cast this
    rw [abs_of_pos hn0] at a1
    refine ⟨n - 2 ^ d, k + 2, ?_, by omega, by linarith [hf.2.2], ?_⟩
    · rw [abs_of_nonneg (by linarith)]
      have : (0 : ℤ) < 2 ^ d := by positivity
      linarith
    · rw [zpow_add₀ (by norm_num)]
      push_cast
      have : (2 : ℝ) ^ d * 2 ^ k * 4 = 1 := by linarith
      norm_num
      linarith
  · rcases le_or_gt k 0 with h4 | h4
    · have h5 : k = -1 ∨ k = 0 := by omega
      rcases h5 with rfl | rfl
      · have : (n : ℝ) ≤ 2 := by norm_num at h2; linarith
        have : n ≤ 2 := by exact_mod_cast this
        have h6 : n = 1 ∨ n = 2 := by omega
        rcases h6 with rfl | rfl
        · convert mem_int hf 1 (by norm_num) using 1; norm_num
        · convert mem_int hf 3 (by norm_num) using 1; norm_num
      · have : (n : ℝ) ≤ 1 := by norm_num at h2; exact_mod_cast h2
        have : n ≤ 1 := by exact_mod_cast this
        have h6 : n = 1 := by omega
        subst h6
        convert mem_int hf 3 (by norm_num) using 1; norm_num
    · exfalso
      have : (2 : ℝ) ^ (1 : ℤ) ≤ 2 ^ k := zpow_le_zpow_right₀ (by norm_num) (by omega)
      norm_num at this
      nlinarith

/-- Four times a number of the format between 0 and 1 is in the format. -/
theorem mem_four_mul (hf : f.Usable) {q : ℝ} (hq : f.Mem q) (h1 : 0 ≤ q) (h2 : q ≤ 1) : f.Mem (4 * q) := by
  obtain ⟨n, k, a1, a2, a3, rfl⟩ := hq
  have hk : (0 : ℝ) < 2 ^ k := by positivity
  have hn0 : 0 ≤ n := by
    by_contra hc
    have : (n : ℝ) ≤ -1 := by exact_mod_cast (show n ≤ -1 by omega)
    nlinarith
  rcases eq_or_lt_of_le hn0 with rfl | hn0
  · convert mem_zero hf using 1; simp
  have hn1 : (1 : ℝ) ≤ n := by exact_mod_cast hn0
  rcases le_or_gt k (-2) with h3 | h3
  · refine ⟨n, k + 2, a1, by omega, by linarith [hf.2.2], ?_⟩
    rw [zpow_add₀ (by norm_num)]
    norm_num
    ring
  · rcases le_or_gt k 0 with h4 | h4
    · have h5 : k = -1 ∨ k = 0 := by omega
      rcases h5 with rfl | rfl
      · have : (n : ℝ) ≤ 2 := by norm_num at h2; linarith
        have : n ≤ 2 := by exact_mod_cast this
        have h6 : n = 1 ∨ n = 2 := by omega
        rcases h6 with rfl | rfl
        · convert mem_int hf 2 (by norm_num) using 1; norm_num
        · convert mem_int hf 4 (by norm_num) using 1; norm_num
      · have : (n : ℝ) ≤ 1 := by norm_num at h2; exact_mod_cast h2
        have : n ≤ 1 := by exact_mod_cast this
        have h6 : n = 1 := by omega
        subst h6
        convert mem_int hf 4 (by norm_num) using 1; norm_num
    · exfalso
      have : (2 : ℝ) ^ (1 : ℤ) ≤ 2 ^ k := zpow_le_zpow_right₀ (by norm_num) (by omega)
      norm_num at this
      nlinarith

end GW.Rounding
