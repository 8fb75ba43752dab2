import Verif.Model.RoundedAnalytic
import Verif.Props.RoundedLikelihood
import Verif.Lemmas.RoundedEnd
import Verif.Lemmas.XRMath

/-! # The Monte-Carlo loop of the analytic likelihood in rounded arithmetic: lemmas -/

namespace GW.RoundedAnalytic
open GW XR Rounding RoundedLikelihood

variable {f : Format} {fl : ℝ → XR}

/-- `x` is a float within `d` of `log s`, or `-inf` if `s` is zero. -/
def Near (f : Format) (d s : ℝ) (x : XR) : Prop := (s = 0 ∧ x = ninf) ∨ (0 < s ∧ ∃ a, x = fin a ∧ f.Mem a ∧ |a - Real.log s| ≤ d)

theorem Near.mono {d e s : ℝ} {x : XR} (h : Near f d s x) (hde : d ≤ e) : Near f e s x := by
  rcases h with h | ⟨h0, a, h1, h2, h3⟩
  · exact Or.inl h
  · exact Or.inr ⟨h0, a, h1, h2, h3.trans hde⟩

theorem Near.within {d s : ℝ} {x : XR} (h : Near f d s x) : Robust.Within d (log (fin s)) x := by
  rcases h with ⟨rfl, rfl⟩ | ⟨h0, a, rfl, -, h3⟩
  · exact Or.inl ⟨by simp, rfl⟩
  · exact Or.inr ⟨_, a, log_fin_pos h0, rfl, h3⟩

/-- The rounded logarithm of a count. -/
theorem rd_log (hw : Wide f) (h : Nearest f fl) {m : ℕ} (hm : 1 ≤ m) {W : ℝ} (h1 : 1 ≤ W) (hmW : Real.log m ≤ W) (hW : W ≤ (2 : ℝ) ^ f.emax) :
    ∃ y, rd fl (log (fin (m : ℝ))) = fin y ∧ f.Mem y ∧ |y - Real.log m| ≤ W / 2 ^ f.p := by
  have hm1 : (1 : ℝ) ≤ m := by exact_mod_cast hm
  obtain ⟨y, e, my, -, d⟩ := Nearest.err_nonneg hw h (Real.log_nonneg hm1) (hmW.trans hW)
  refine ⟨y, ?_, my, d.trans ?_⟩
  · rw [log_fin_pos (by linarith), rd_fin, e]
  · gcongr
    exact max_le hmW (by linarith)

/-- A rounded sum of two numbers that are off themselves. -/
theorem add_near (hf : f.Usable) (h : Nearest f fl) {a b a0 b0 d e W : ℝ} (ha : f.Mem a) (hb : f.Mem b) (hda : |a - a0| ≤ d) (hdb : |b - b0| ≤ e)
    (h0 : |a0 + b0| ≤ W - 4) (hde : d + e ≤ 4) (hW : W ≤ (2 : ℝ) ^ f.emax) :
    ∃ c, fl (a + b) = fin c ∧ f.Mem c ∧ |c - (a0 + b0)| ≤ d + e + W / 2 ^ f.p := by
  have hab : |a + b - (a0 + b0)| ≤ d + e := by
    rw [show a + b - (a0 + b0) = (a - a0) + (b - b0) by ring]
    exact (abs_add_le _ _).trans (add_le_add hda hdb)
  have hab' : |a + b| ≤ W := by
    have := abs_sub_abs_le_abs_sub (a + b) (a0 + b0)
    linarith
  obtain ⟨c, ec, mc, dc⟩ := Nearest.err_add hf h ha hb (hab'.trans hW)
  refine ⟨c, ec, mc, ?_⟩
  have h1 : |a + b| / 2 ^ f.p ≤ W / 2 ^ f.p := by gcongr
  have h2 := abs_sub_le c (a + b) (a0 + b0)
  linarith

/-- Subtracting the logarithm of a count. -/
theorem sub_log (hw : Wide f) (h : Nearest f fl) {d s W : ℝ} {x : XR} {m : ℕ} (hx : Near f d s x) (hm : 1 ≤ m) (h1 : 1 ≤ W) (hmW : Real.log m ≤ W)
    (hW : W ≤ (2 : ℝ) ^ f.emax) (hs : 0 < s → |Real.log (s / m)| ≤ W - 4) (hd : d + W / 2 ^ f.p ≤ 4) :
    Near f (d + 2 * W / 2 ^ f.p) (s / m) (Rounding.sub fl x (rd fl (log (fin (m : ℝ))))) := by
  obtain ⟨y, ey, my, dy⟩ := rd_log hw h hm h1 hmW hW
  have hm0 : (0 : ℝ) < m := by exact_mod_cast hm
  rw [ey]
  rcases hx with ⟨rfl, rfl⟩ | ⟨h0, a, rfl, ma, da⟩
  · exact Or.inl ⟨by simp, rfl⟩
  · refine Or.inr ⟨by positivity, ?_⟩
    have hs := hs h0
    have el : Real.log (s / m) = Real.log s + -Real.log m := by rw [Real.log_div h0.ne' hm0.ne']; ring
    rw [el] at hs ⊢
    obtain ⟨c, ec, mc, dc⟩ := add_near hw.1 h ma my.neg da (show |-y - -Real.log m| ≤ W / 2 ^ f.p by rw [← abs_neg]; convert dy using 2; ring) hs hd hW
    refine ⟨c, ?_, mc, dc.trans (le_of_eq (by ring))⟩
    rw [Rounding.sub_def, sub_eq_add_neg, ec]

/-- Adding the logarithm of a count. -/
theorem add_log (hw : Wide f) (h : Nearest f fl) {d s W : ℝ} {x : XR} {m : ℕ} (hx : Near f d (s / m) x) (hm : 1 ≤ m) (h1 : 1 ≤ W) (hmW : Real.log m ≤ W)
    (hW : W ≤ (2 : ℝ) ^ f.emax) (hs : 0 < s → |Real.log s| ≤ W - 4) (hd : d + W / 2 ^ f.p ≤ 4) :
    Near f (d + 2 * W / 2 ^ f.p) s (Rounding.add fl (rd fl (log (fin (m : ℝ)))) x) := by
  obtain ⟨y, ey, my, dy⟩ := rd_log hw h hm h1 hmW hW
  have hm0 : (0 : ℝ) < m := by exact_mod_cast hm
  rw [ey]
  rcases hx with ⟨e, rfl⟩ | ⟨h0, a, rfl, ma, da⟩
  · refine Or.inl ⟨?_, rfl⟩
    rcases div_eq_zero_iff.1 e with e | e
    · exact e
    · exact absurd e hm0.ne'
  · have hs0 : 0 < s := by
      have := mul_pos h0 hm0
      rwa [div_mul_cancel₀ _ hm0.ne'] at this
    refine Or.inr ⟨hs0, ?_⟩
    have hs := hs hs0
    have el : Real.log s = Real.log m + Real.log (s / m) := by rw [Real.log_div hs0.ne' hm0.ne']; ring
    rw [el] at hs ⊢
    obtain ⟨c, ec, mc, dc⟩ := add_near hw.1 h my ma dy da hs (by linarith) hW
    refine ⟨c, ?_, mc, dc.trans (le_of_eq (by ring))⟩
    rw [Rounding.add_def, ec]

theorem log_one_add_close {z t e : ℝ} (hz : 0 ≤ z) (ht : 0 ≤ t) (h : |z - t| ≤ e) : |Real.log (1 + z) - Real.log (1 + t)| ≤ e := by
  have key : ∀ {p q : ℝ}, 0 ≤ p → p ≤ q → Real.log (1 + q) - Real.log (1 + p) ≤ q - p := by
    intro p q hp hpq
    have hp1 : 0 < 1 + p := by linarith
    rw [← Real.log_div (by linarith) hp1.ne']
    refine (Real.log_le_sub_one_of_pos (by apply div_pos <;> linarith)).trans ?_
    rw [div_sub_one hp1.ne', div_le_iff₀ hp1]
    nlinarith
  rcases le_total z t with hzt | hzt
  · have h1 := Real.log_le_log (show 0 < 1 + z by linarith) (show 1 + z ≤ 1 + t by linarith)
    have h2 := key hz hzt
    rw [abs_sub_comm] at h ⊢
    rw [abs_of_nonneg (by linarith)] at h ⊢
    linarith
  · have h1 := Real.log_le_log (show 0 < 1 + t by linarith) (show 1 + t ≤ 1 + z by linarith)
    have h2 := key ht hzt
    rw [abs_of_nonneg (by linarith)] at h ⊢
    linarith

theorem rounded_exp (h : Nearest f fl) {a b : ℝ} (hab : a ≤ b) : exp (-(abs (Rounding.sub fl (fin a) (fin b)))) = exp (Rounding.sub fl (fin a) (fin b)) ∧
    exp (-(abs (Rounding.sub fl (fin b) (fin a)))) = exp (Rounding.sub fl (fin a) (fin b)) := by
  have e : Rounding.sub fl (fin b) (fin a) = -(Rounding.sub fl (fin a) (fin b)) := by
    rw [Rounding.sub_def, Rounding.sub_def, ← h.odd]; congr 1; ring
  have hle : Rounding.sub fl (fin a) (fin b) = ninf ∨ ∃ y, Rounding.sub fl (fin a) (fin b) = fin y ∧ y ≤ 0 := by
    rw [Rounding.sub_def]
    rcases lt_or_ge (-f.limit) (a - b) with hl | hl
    · have habs : |a - b| < f.limit := by rw [abs_lt]; exact ⟨hl, by linarith [limit_pos f]⟩
      obtain ⟨y, ey, -, -⟩ := h.inside _ habs
      refine Or.inr ⟨y, ey, ?_⟩
      obtain ⟨y', ey', -⟩ := h.inside (b - a) (by rwa [abs_sub_comm])
      have ho := h.odd (a - b)
      rw [neg_sub, ey', ey] at ho
      have hy' : y' = -y := fin.inj ho
      have := h.mono (show a - b ≤ b - a by linarith)
      rw [ey, ey'] at this
      have : y ≤ y' := this
      linarith
    · exact Or.inl (h.below _ hl)
  rw [e]
  rcases hle with e1 | ⟨y, e1, hy⟩ <;> rw [e1]
  · exact ⟨rfl, rfl⟩
  · refine ⟨?_, ?_⟩ <;> simp only [neg_fin, XR.abs_fin, _root_.abs_neg, abs_of_nonpos hy, _root_.neg_neg]

/-- The rounded `logaddexp` of two floats. -/
theorem logaddexp_fin (hw : Wide f) (h : Nearest f fl) {a b W : ℝ} (ha : f.Mem a) (hb : f.Mem b) (haW : |a| ≤ W - 2) (hbW : |b| ≤ W - 2) (hW : W ≤ (2 : ℝ) ^ f.emax) :
    ∃ c, logaddexp fl (fin a) (fin b) = fin c ∧ f.Mem c ∧ |c - Real.log (Real.exp a + Real.exp b)| ≤ (W + 2) / 2 ^ f.p := by
  have hf := hw.1
  have hpp : (0 : ℝ) < 2 ^ f.p := by positivity
  have h8 := pow_ge_eight hf
  -- the case of the first argument being the smaller one
  have main : ∀ {a b : ℝ}, f.Mem a → f.Mem b → |b| ≤ W - 2 → a ≤ b →
      ∃ c, Rounding.add fl (fin b) (rd fl (log1p (rd fl (exp (Rounding.sub fl (fin a) (fin b)))))) = fin c ∧ f.Mem c ∧ |c - Real.log (Real.exp a + Real.exp b)| ≤ (W + 2) / 2 ^ f.p := by
    intro a b ha hb hbW hab
    obtain ⟨z, ez, mz, z0, z1⟩ := term_unit hf h hab
    have dz := term_close hw h hb ha hab ez
    rw [term] at ez
    rw [ez, log1p_fin (by linarith), rd_fin]
    have l0 : 0 ≤ Real.log (1 + z) := Real.log_nonneg (by linarith)
    have l1 : Real.log (1 + z) ≤ 1 := (Real.log_le_sub_one_of_pos (by linarith)).trans (by linarith)
    have b0 := abs_nonneg b
    obtain ⟨l, el, ml, lp, dl⟩ := Nearest.err_nonneg hw h l0 (by linarith)
    rw [el, Rounding.add_def]
    have dl' : |l - Real.log (1 + z)| ≤ 1 / 2 ^ f.p := dl.trans (by gcongr; exact max_le l1 (by norm_num))
    have u1 : 1 / (2 : ℝ) ^ f.p ≤ 1 := by rw [div_le_one hpp]; linarith
    have l2 : |l| ≤ 2 := by
      have := abs_sub_abs_le_abs_sub l (Real.log (1 + z))
      rw [abs_of_nonneg l0] at this
      linarith
    have hbl : |b + l| ≤ W := (abs_add_le b l).trans (by linarith)
    obtain ⟨c, ec, mc, dc⟩ := Nearest.err_add hf h hb ml (hbl.trans hW)
    refine ⟨c, ec, mc, ?_⟩
    have e1 : Real.log (Real.exp a + Real.exp b) = b + Real.log (1 + Real.exp (a - b)) := by
      rw [show Real.exp a + Real.exp b = Real.exp b * (1 + Real.exp (a - b)) by rw [mul_add, ← Real.exp_add]; ring_nf,
        Real.log_mul (Real.exp_pos _).ne' (by positivity), Real.log_exp]
    have d2 := log_one_add_close z0 (Real.exp_pos (a - b)).le dz
    rw [e1]
    have d3 : |c - (b + l)| ≤ (|b| + 1 + 1 / 2 ^ f.p) / 2 ^ f.p := dc.trans (by
      gcongr
      have := abs_sub_abs_le_abs_sub l (Real.log (1 + z))
      rw [abs_of_nonneg l0] at this
      exact (abs_add_le b l).trans (by linarith))
    have d4 : (|b| + 1 + 1 / 2 ^ f.p) / 2 ^ f.p ≤ (W - 1 + 1 / 8) / 2 ^ f.p := by
      gcongr
      have : 1 / (2 : ℝ) ^ f.p ≤ 1 / 8 := one_div_le_one_div_of_le (by norm_num) h8
      linarith
    have t : c - (b + Real.log (1 + Real.exp (a - b))) = (c - (b + l)) + (l - Real.log (1 + z)) + (Real.log (1 + z) - Real.log (1 + Real.exp (a - b))) := by ring
    rw [t]
    have t1 := abs_add_le ((c - (b + l)) + (l - Real.log (1 + z))) (Real.log (1 + z) - Real.log (1 + Real.exp (a - b)))
    have t2 := abs_add_le (c - (b + l)) (l - Real.log (1 + z))
    have t3 : (W + 2) / 2 ^ f.p = (W - 1 + 1 / 8) / 2 ^ f.p + 1 / 2 ^ f.p + 3 / 2 / 2 ^ f.p + 3 / 8 / 2 ^ f.p := by ring
    have t4 : 0 ≤ 3 / 8 / (2 : ℝ) ^ f.p := by positivity
    linarith
  have nn : ∀ a b : ℝ, (Rounding.sub fl (fin a) (fin b)).isNan = false := by
    intro a b
    rw [Rounding.sub_def]
    have := h.ne_nan (a - b)
    cases hh : fl (a - b) <;> simp_all
  unfold logaddexp
  simp only [nn, Bool.false_eq_true, if_false, max_fin_fin]
  rcases le_total a b with hab | hab
  · rw [(rounded_exp h hab).1, max_eq_right hab]
    exact main ha hb hbW hab
  · rw [(rounded_exp h hab).2, max_eq_left hab, add_comm (Real.exp a)]
    exact main hb ha haW hab

/-- Sums of two sums. -/
theorem logaddexp_near (hw : Wide f) (h : Nearest f fl) {d s t W : ℝ} {x y : XR} (hx : Near f d s x) (hy : Near f d t y) (hd : d ≤ 2) (h2 : 2 ≤ W)
    (hW : W ≤ (2 : ℝ) ^ f.emax) (hs : 0 < s → |Real.log s| ≤ W - 4) (ht : 0 < t → |Real.log t| ≤ W - 4) :
    Near f (d + 2 * W / 2 ^ f.p) (s + t) (logaddexp fl x y) := by
  have hf := hw.1
  have u0 : 0 ≤ 2 * W / (2 : ℝ) ^ f.p := by positivity
  have z0 : fl 0 = fin 0 := h.exact (mem_zero hf)
  have l0 : rd fl (log1p (rd fl (exp ninf))) = fin 0 := by
    rw [exp_ninf, rd_fin, z0, log1p_fin (by norm_num)]
    simp [z0, rd_fin]
  rcases hx with ⟨rfl, rfl⟩ | ⟨s0, a, rfl, ma, da⟩ <;> rcases hy with ⟨rfl, rfl⟩ | ⟨t0, b, rfl, mb, db⟩
  · exact Or.inl ⟨by simp, rfl⟩
  · rw [zero_add]
    refine Or.inr ⟨t0, b, ?_, mb, by linarith⟩
    have : logaddexp fl ninf (fin b) = Rounding.add fl (fin b) (rd fl (log1p (rd fl (exp ninf)))) := rfl
    rw [this, l0, Rounding.add_def, add_zero, h.exact mb]
  · rw [add_zero]
    refine Or.inr ⟨s0, a, ?_, ma, by linarith⟩
    have : logaddexp fl (fin a) ninf = Rounding.add fl (fin a) (rd fl (log1p (rd fl (exp ninf)))) := rfl
    rw [this, l0, Rounding.add_def, add_zero, h.exact ma]
  · have hs := hs s0
    have ht := ht t0
    have ha : |a| ≤ W - 2 := by have := abs_sub_abs_le_abs_sub a (Real.log s); linarith
    have hb : |b| ≤ W - 2 := by have := abs_sub_abs_le_abs_sub b (Real.log t); linarith
    obtain ⟨c, ec, mc, dc⟩ := logaddexp_fin hw h ma mb ha hb hW
    refine Or.inr ⟨by positivity, c, ec, mc, ?_⟩
    have k1 : |Real.log (Real.exp a + Real.exp b) - Real.log (s + t)| ≤ d := by
      have g : ∀ {v r : ℝ}, 0 < r → |v - Real.log r| ≤ d → Real.exp (-d) * r ≤ Real.exp v ∧ Real.exp v ≤ Real.exp d * r := by
        intro v r hr hv
        obtain ⟨v1, v2⟩ := abs_le.1 hv
        have er : r = Real.exp (Real.log r) := (Real.exp_log hr).symm
        refine ⟨?_, ?_⟩
        · calc Real.exp (-d) * r = Real.exp (-d + Real.log r) := by rw [Real.exp_add, Real.exp_log hr]
            _ ≤ Real.exp v := Real.exp_le_exp.2 (by linarith)
        · calc Real.exp v ≤ Real.exp (d + Real.log r) := Real.exp_le_exp.2 (by linarith)
            _ = Real.exp d * r := by rw [Real.exp_add, Real.exp_log hr]
      obtain ⟨a1, a2⟩ := g s0 da
      obtain ⟨b1, b2⟩ := g t0 db
      exact Robust.log_sum_within (by linarith) (by linarith) (by positivity)
    have k2 := abs_sub_le c (Real.log (Real.exp a + Real.exp b)) (Real.log (s + t))
    have k3 : (W + 2) / (2 : ℝ) ^ f.p ≤ 2 * W / 2 ^ f.p := by gcongr; linarith
    linarith

/-- The size of a sum of weights between `exp (-B)` and `exp B`, some of them zero. -/
theorem sum_size {B : ℝ} : ∀ (w : List ℝ), (∀ x ∈ w, x = 0 ∨ Real.exp (-B) ≤ x ∧ x ≤ Real.exp B) → 0 < w.sum →
    Real.exp (-B) ≤ w.sum ∧ w.sum ≤ w.length * Real.exp B
  | [], _, h0 => by simp at h0
  | x :: w, h, h0 => by
    have pB := Real.exp_pos B
    have pB' := Real.exp_pos (-B)
    have hw0 : 0 ≤ w.sum := List.sum_nonneg fun y hy => by
      rcases h y (by simp [hy]) with e | e
      · exact e.ge
      · linarith
    have up : w.sum ≤ w.length * Real.exp B := by
      rcases hw0.eq_or_lt with e | e
      · rw [← e]; positivity
      · exact (sum_size w (fun y hy => h y (by simp [hy])) e).2
    rw [List.sum_cons] at h0 ⊢
    rw [List.length_cons]
    push_cast
    rcases h x (by simp) with rfl | ⟨e1, e2⟩
    · rw [zero_add] at h0 ⊢
      have := sum_size w (fun y hy => h y (by simp [hy])) h0
      exact ⟨this.1, by linarith⟩
    · exact ⟨by linarith, by linarith⟩

theorem log_size {B : ℝ} {w : List ℝ} (h : ∀ x ∈ w, x = 0 ∨ Real.exp (-B) ≤ x ∧ x ≤ Real.exp B) (h0 : 0 < w.sum) :
    |Real.log w.sum| ≤ B + Real.log w.length ∧ |Real.log (w.sum / w.length)| ≤ B + Real.log w.length := by
  obtain ⟨h1, h2⟩ := sum_size w h h0
  have hl : 1 ≤ w.length := by
    rcases w with _ | ⟨x, w⟩
    · simp at h0
    · simp
  have hl' : (1 : ℝ) ≤ w.length := by exact_mod_cast hl
  have hl0 : (0 : ℝ) < w.length := by linarith
  have k1 : -B ≤ Real.log w.sum := by rw [Real.le_log_iff_exp_le h0]; exact h1
  have k2 : Real.log w.sum ≤ Real.log w.length + B := by
    have := Real.log_le_log h0 h2
    rwa [Real.log_mul hl0.ne' (Real.exp_pos _).ne', Real.log_exp] at this
  have k3 := Real.log_nonneg hl'
  rw [Real.log_div h0.ne' hl0.ne']
  exact ⟨abs_le.2 ⟨by linarith, by linarith⟩, abs_le.2 ⟨by linarith, by linarith⟩⟩

end GW.RoundedAnalytic
