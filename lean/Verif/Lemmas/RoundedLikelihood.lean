import Verif.Lemmas.RoundedSum
import Mathlib.Analysis.Complex.ExponentialBounds

/-!
# The rounded `logsumexp`
-/

namespace GW.RoundedLikelihood
open GW XR Rounding

variable {f : Format} {fl : ℝ → XR}

/-- One summand of `logsumexp`. -/
noncomputable def term (fl : ℝ → XR) (M : ℝ) (x : XR) : XR := rd fl (exp (Rounding.sub fl x (fin M)))

theorem foldr_max_largest {xs : List XR} {M : ℝ} (hx : ∀ x ∈ xs, Weight f x) (h : Largest xs M) : xs.foldr XR.max ninf = fin M := by
  obtain ⟨h1, h2⟩ := h
  have key : ∀ ys : List XR, (∀ x ∈ ys, Weight f x) → (∀ x ∈ ys, XR.le x (fin M)) →
      (ys.foldr XR.max ninf = ninf ∨ ∃ a, ys.foldr XR.max ninf = fin a ∧ a ≤ M) ∧ (fin M ∈ ys → ys.foldr XR.max ninf = fin M) := by
    intro ys
    induction ys with
    | nil => intro _ _; simp
    | cons y ys ih =>
      intro hw hl
      obtain ⟨i1, i2⟩ := ih (fun x hx => hw x (by simp [hx])) (fun x hx => hl x (by simp [hx]))
      have hy := hl y (by simp)
      simp only [List.foldr_cons]
      rcases hw y (by simp) with rfl | ⟨b, rfl, -⟩
      · constructor
        · rcases i1 with i1 | ⟨a, i1, ha⟩
          · left; rw [i1]; rfl
          · right; exact ⟨a, by rw [i1]; rfl, ha⟩
        · intro hm
          have : fin M ∈ ys := by simpa using hm
          rw [i2 this]; rfl
      · have hb : b ≤ M := hy
        constructor
        · right
          rcases i1 with i1 | ⟨a, i1, ha⟩
          · exact ⟨b, by rw [i1]; rfl, hb⟩
          · exact ⟨Max.max b a, by rw [i1]; rfl, max_le hb ha⟩
        · intro hm
          rcases List.mem_cons.1 hm with e | hm
          · injection e with e
            subst e
            rcases i1 with i1 | ⟨a, i1, ha⟩
            · rw [i1]; rfl
            · rw [i1]; show fin (Max.max M a) = fin M; rw [max_eq_left ha]
          · rw [i2 hm]; show fin (Max.max b M) = fin M; rw [max_eq_right hb]
  exact (key xs hx h2).2 h1

theorem logsumexp_largest {xs : List XR} {M : ℝ} (R : Reduction) (hx : ∀ x ∈ xs, Weight f x) (h : Largest xs M) :
    logsumexp fl R xs = Rounding.add fl (rd fl (log (sum fl R (xs.map (term fl M))))) (fin M) := by
  simp only [logsumexp, foldr_max_largest hx h, isFinite_fin, if_true]
  rfl

theorem term_ninf (hf : f.Usable) (h : Nearest f fl) (M : ℝ) : term fl M ninf = fin 0 := by
  have : Rounding.sub fl ninf (fin M) = ninf := rfl
  rw [term, this, exp_ninf, rd_fin, h.exact (mem_zero hf)]

theorem term_max (hf : f.Usable) (h : Nearest f fl) (M : ℝ) : term fl M (fin M) = fin 1 := by
  rw [term, Rounding.sub_def, sub_self, h.exact (mem_zero hf), exp_fin, Real.exp_zero, rd_fin, h.exact (mem_one hf)]

theorem term_unit (hf : f.Usable) (h : Nearest f fl) {M a : ℝ} (ham : a ≤ M) : ∃ z, term fl M (fin a) = fin z ∧ f.Mem z ∧ 0 ≤ z ∧ z ≤ 1 := by
  rw [term, Rounding.sub_def]
  rcases h.le (mem_zero hf) (show a - M ≤ 0 by linarith) with e | ⟨y, e, -, hy⟩
  · rw [e, exp_ninf, rd_fin, h.exact (mem_zero hf)]
    exact ⟨0, rfl, mem_zero hf, le_rfl, by norm_num⟩
  · rw [e, exp_fin, rd_fin]
    exact h.between (mem_zero hf) (mem_one hf) (Real.exp_pos y).le (by simpa using hy)

theorem term_weight (hf : f.Usable) (h : Nearest f fl) {M : ℝ} {x : XR} (hx : Weight f x) (hl : XR.le x (fin M)) :
    ∃ z, term fl M x = fin z ∧ f.Mem z ∧ 0 ≤ z ∧ z ≤ 1 := by
  rcases hx with rfl | ⟨a, rfl, -⟩
  · exact ⟨0, term_ninf hf h M, mem_zero hf, le_rfl, by norm_num⟩
  · exact term_unit hf h hl

theorem nz_terms (hf : f.Usable) (h : Nearest f fl) (M : ℝ) {xs : List XR} (hx : ∀ x ∈ xs, Weight f x) :
    nz (xs.map (term fl M)) ≤ finites xs := by
  induction xs with
  | nil => simp [nz, finites]
  | cons x xs ih =>
    have ih := ih fun y hy => hx y (by simp [hy])
    rw [List.map_cons, show term fl M x :: xs.map (term fl M) = [term fl M x] ++ xs.map (term fl M) from rfl, nz_append]
    have e : finites (x :: xs) = finites [x] + finites xs := by
      simp only [finites]; rw [← List.length_append, ← List.filter_append]; rfl
    rw [e]
    refine Nat.add_le_add ?_ ih
    rcases hx x (by simp) with rfl | ⟨a, rfl, -⟩
    · rw [term_ninf hf h M]; simp [nz]
    · have : finites [fin a] = 1 := rfl
      rw [this]
      exact (List.length_filter_le _ _).trans (by simp)

/-- The rounded sum of the exponentials. -/
theorem sum_bounds (hf : f.Usable) (h : Nearest f fl) (R : Reduction) {xs : List XR} {M : ℝ} (hx : ∀ x ∈ xs, Weight f x) (hM : Largest xs M)
    (hn : finites xs < 2 ^ f.p) : ∃ s, sum fl R (xs.map (term fl M)) = fin s ∧ f.Mem s ∧ 1 ≤ s ∧ s ≤ finites xs := by
  obtain ⟨k, hk⟩ := R.uses (xs.map (term fl M))
  have hnz : nz (R.tree (xs.map (term fl M))).leaves ≤ finites xs := by
    rw [nz_perm hk, nz_append, nz_zeros, add_zero]; exact nz_terms hf h M hx
  obtain ⟨s, e, m, -, s1, s2⟩ := tree_unit hf h (R.tree (xs.map (term fl M))) (by
    intro x hx'
    have := hk.subset hx'
    rcases List.mem_append.1 this with h1 | h1
    · obtain ⟨y, hy, rfl⟩ := List.mem_map.1 h1
      exact term_weight hf h (hx y hy) (hM.2 y hy)
    · rw [List.eq_of_mem_replicate h1]
      exact ⟨0, rfl, mem_zero hf, le_rfl, by norm_num⟩) (by omega)
  refine ⟨s, e, m, ?_, s1.trans (by exact_mod_cast hnz)⟩
  apply s2 1
  rw [hk.mem_iff, List.mem_append]
  left
  exact List.mem_map.2 ⟨fin M, hM.1, term_max hf h M⟩

/-- The rounded logarithm of the sum. -/
theorem log_bounds (hf : f.Usable) (h : Nearest f fl) {n : ℕ} (hn : n < 2 ^ f.p) {s : ℝ} (h1 : 1 ≤ s) (h2 : s ≤ n) :
    ∃ l L, rd fl (log (fin s)) = fin l ∧ rd fl (log (fin n)) = fin L ∧ 0 ≤ l ∧ l ≤ L ∧ f.Mem l := by
  have hs0 : 0 < s := by linarith
  have hn0 : (0 : ℝ) < n := by linarith
  rw [log_fin_pos hs0, log_fin_pos hn0, rd_fin, rd_fin]
  have a1 : 0 ≤ Real.log s := Real.log_nonneg h1
  have a2 : Real.log s ≤ Real.log n := Real.log_le_log hs0 h2
  have a3 : Real.log n ≤ n := by have := Real.log_le_sub_one_of_pos hn0; linarith
  obtain ⟨l, e1, m1, l0, -⟩ := h.between (mem_zero hf) (mem_nat hf hn) a1 (a2.trans a3)
  obtain ⟨L, e2, -, -, -⟩ := h.between (mem_zero hf) (mem_nat hf hn) (a1.trans a2) a3
  have := h.mono a2
  rw [e1, e2] at this
  exact ⟨l, L, e1, e2, l0, this, m1⟩

/-! ## Accuracy -/

theorem pow_ge_eight (hf : f.Usable) : (8 : ℝ) ≤ 2 ^ f.p := by
  calc (8 : ℝ) = 2 ^ 3 := by norm_num
    _ ≤ 2 ^ f.p := pow_le_pow_right₀ (by norm_num) hf.1

theorem neg_mul_exp_le (x : ℝ) : -x * Real.exp x ≤ 2 / 5 := by
  have h1 := Real.add_one_le_exp (-x - 1)
  have h2 : Real.exp (-x - 1) * Real.exp x = Real.exp (-1) := by rw [← Real.exp_add]; congr 1; ring
  have h3 : -x * Real.exp x ≤ Real.exp (-1) := by
    rw [← h2]; exact mul_le_mul_of_nonneg_right (by linarith) (Real.exp_pos x).le
  have h4 : Real.exp (-1) ≤ 2 / 5 := by
    rw [Real.exp_neg]
    have : (5 / 2 : ℝ) ≤ Real.exp 1 := by have := Real.exp_one_gt_d9; linarith
    rw [inv_le_comm₀ (Real.exp_pos _) (by norm_num)]; linarith
  linarith

/-- Rounding the argument of an exponential, for arguments below zero. -/
theorem exp_close {d y u : ℝ} (hu : 0 ≤ u) (hu8 : u ≤ 1 / 8) (hd : d ≤ 0) (h : |y - d| ≤ u * |d|) : |Real.exp y - Real.exp d| ≤ u / 2 := by
  rw [abs_of_nonpos hd] at h
  obtain ⟨h1, h2⟩ := abs_le.1 h
  -- both exponentials are at most `exp (d (1 - u))`
  have hm : ∀ a b : ℝ, a ≤ b → Real.exp b - Real.exp a ≤ (b - a) * Real.exp b := by
    intro a b _
    have := Real.add_one_le_exp (a - b)
    have e : Real.exp a = Real.exp (a - b) * Real.exp b := by rw [← Real.exp_add]; congr 1; ring
    rw [e]
    nlinarith [Real.exp_pos b]
  have hc : u * -d * Real.exp (d * (1 - u)) ≤ u / 2 := by
    have := neg_mul_exp_le (d * (1 - u))
    have h3 : (0 : ℝ) < 1 - u := by linarith
    have h4 : -d * Real.exp (d * (1 - u)) ≤ 1 / 2 := by
      have : -d * Real.exp (d * (1 - u)) * (1 - u) ≤ 2 / 5 := by nlinarith
      have h5 : 0 ≤ -d * Real.exp (d * (1 - u)) := mul_nonneg (by linarith) (Real.exp_pos _).le
      nlinarith
    nlinarith
  rcases le_total d y with hdy | hdy
  · have e1 := hm d y hdy
    have e2 : Real.exp d ≤ Real.exp y := Real.exp_le_exp.2 hdy
    rw [abs_of_nonneg (by linarith)]
    refine e1.trans (le_trans ?_ hc)
    have e3 : Real.exp y ≤ Real.exp (d * (1 - u)) := Real.exp_le_exp.2 (by linarith)
    exact mul_le_mul (by linarith) e3 (Real.exp_pos _).le (mul_nonneg hu (by linarith))
  · have e1 := hm y d hdy
    have e2 : Real.exp y ≤ Real.exp d := Real.exp_le_exp.2 hdy
    rw [abs_of_nonpos (by linarith)]
    have e3 : Real.exp d ≤ Real.exp (d * (1 - u)) := Real.exp_le_exp.2 (by nlinarith)
    have : (d - y) * Real.exp d ≤ u * -d * Real.exp (d * (1 - u)) :=
      mul_le_mul (by linarith) e3 (Real.exp_pos _).le (mul_nonneg hu (by linarith))
    linarith

/-- Every summand is off by at most one and a half units. -/
theorem term_close (hw : Wide f) (h : Nearest f fl) {M a z : ℝ} (hM : f.Mem M) (ha : f.Mem a) (ham : a ≤ M) (hz : term fl M (fin a) = fin z) :
    |z - Real.exp (a - M)| ≤ 3 / 2 / 2 ^ f.p := by
  have hf := hw.1
  have hpp : (0 : ℝ) < 2 ^ f.p := by positivity
  have h8 := pow_ge_eight hf
  have hd : a - M ≤ 0 := by linarith
  have hb : (2 : ℝ) * 2 ^ f.p ≤ 2 ^ f.emax := by
    rw [← zpow_natCast, ← zpow_one_add₀ (by norm_num)]
    exact zpow_le_zpow_right₀ (by norm_num) (by have := hw.2.2; omega)
  rw [term, Rounding.sub_def] at hz
  rcases le_or_gt |a - M| ((2 : ℝ) ^ f.emax) with hs | hs
  · obtain ⟨y, ey, my, dy⟩ := Nearest.err_add hf h ha hM.neg (by rwa [← sub_eq_add_neg])
    rw [← sub_eq_add_neg] at ey dy
    rw [ey, exp_fin, rd_fin] at hz
    have hy0 : y ≤ 0 := by
      have := h.mono hd
      rwa [h.exact (mem_zero hf), ey] at this
    have c1 := exp_close (u := 1 / 2 ^ f.p) (by positivity) (by rw [div_le_div_iff₀ hpp (by norm_num)]; linarith) hd (by rw [one_div, inv_mul_eq_div]; exact dy)
    have hy1 : Real.exp y ≤ 1 := by simpa using hy0
    obtain ⟨z', ez, -, -, dz⟩ := Nearest.err_nonneg hw h (Real.exp_pos y).le (hy1.trans (by linarith))
    rw [hz] at ez
    injection ez with ez
    subst ez
    have c2 : |z - Real.exp y| ≤ 1 / 2 ^ f.p := by
      refine dz.trans ?_
      gcongr
      exact max_le hy1 (by norm_num)
    have : |z - Real.exp (a - M)| ≤ |z - Real.exp y| + |Real.exp y - Real.exp (a - M)| := abs_sub_le _ _ _
    have e : 3 / 2 / (2 : ℝ) ^ f.p = 1 / 2 ^ f.p + 1 / 2 ^ f.p / 2 := by ring
    rw [e]; linarith
  · rw [abs_of_nonpos hd] at hs
    have hexp : Real.exp (-(2 : ℝ) ^ f.emax) ≤ 1 / 2 / 2 ^ f.p := by
      have h1 := Real.add_one_le_exp ((2 : ℝ) ^ f.emax)
      rw [Real.exp_neg, inv_eq_one_div, div_div]
      exact one_div_le_one_div_of_le (by positivity) (by linarith)
    have c1 : Real.exp (a - M) ≤ 1 / 2 / 2 ^ f.p := le_trans (Real.exp_le_exp.2 (by linarith)) hexp
    have c0 := Real.exp_pos (a - M)
    have c2 : 0 ≤ z ∧ z ≤ 1 / 2 ^ f.p := by
      have hmm : f.Mem (-(2 : ℝ) ^ f.emax) := (two_pow_mem hf (by have := hf.2.1; have := hf.2.2; omega) le_rfl).neg
      rcases h.le hmm (show a - M ≤ -(2 : ℝ) ^ f.emax by linarith) with e | ⟨y, e, -, hy⟩
      · rw [e, exp_ninf, rd_fin, h.exact (mem_zero hf)] at hz
        injection hz with hz
        subst hz
        exact ⟨le_rfl, by positivity⟩
      · rw [e, exp_fin, rd_fin] at hz
        have hy1 : Real.exp y ≤ 1 / 2 / 2 ^ f.p := le_trans (Real.exp_le_exp.2 hy) hexp
        have hm2 : f.Mem ((2 : ℝ) ^ (-(f.p : ℤ))) := two_pow_mem hf (by have := hw.2.1; have := hf.1; omega) (by have := hf.2.2; omega)
        have e2 : (2 : ℝ) ^ (-(f.p : ℤ)) = 1 / 2 ^ f.p := by rw [zpow_neg, zpow_natCast, one_div]
        rw [e2] at hm2
        obtain ⟨z', ez, -, z0, z1⟩ := h.between (mem_zero hf) hm2 (Real.exp_pos y).le (hy1.trans (by rw [div_div]; gcongr; · linarith))
        rw [hz] at ez
        injection ez with ez
        subst ez
        exact ⟨z0, z1⟩
    have e : 3 / 2 / (2 : ℝ) ^ f.p = 1 / 2 ^ f.p + 1 / 2 / 2 ^ f.p := by ring
    rw [e, abs_le]
    have : 0 < 1 / (2 : ℝ) ^ f.p := by positivity
    have : 0 < 1 / 2 / (2 : ℝ) ^ f.p := by positivity
    constructor <;> linarith [c2.1, c2.2]

end GW.RoundedLikelihood
