import Verif.Props.RoundedAnalytic

/-!
# C109: the estimated Monte-Carlo error overflows

The squared weights are summed outside the log domain.  If the weights of a batch are so large that their squares overflow, the estimated squared error is NaN although the estimate itself
is right, and NaN ends the loop.
-/

namespace GW.RoundedAnalytic
open GW XR Rounding RoundedLikelihood
open GW (mean)
open GW.Analytic (pool)

variable {f : Format} {fl : ℝ → XR}

theorem exp_overflow (h : Nearest f fl) {c : ℝ} (hc : f.limit ≤ Real.exp c) {x : XR} (hx : x = pinf ∨ ∃ y, x = fin y ∧ c ≤ y) : rd fl (exp x) = pinf := by
  rcases hx with rfl | ⟨y, rfl, hy⟩
  · rfl
  · rw [exp_fin, rd_fin]
    exact h.above _ (hc.trans (Real.exp_le_exp.2 hy))

/-- The squared error of a batch of large weights. -/
theorem batch_overflow (hw : Wide f) (h : Nearest f fl) (R : Reduction) {B W c : ℝ} {n : ℕ} (hn : 1 ≤ n) {xs : List XR} (hlen : xs.length = n)
    (hx : ∀ x ∈ xs, ∃ a, x = fin a ∧ f.Mem a ∧ c + 1 ≤ a ∧ |a| ≤ B) (hB : 0 ≤ B) (hWB : B + Real.log n + 4 ≤ W) (hW : W ≤ (2 : ℝ) ^ f.emax)
    (hn8 : (8 : ℝ) * n ≤ 2 ^ f.p) (hBn : B + n ≤ (2 : ℝ) ^ f.emax) (hE : (5 * n + 3 * W) / 2 ^ f.p ≤ 1)
    (hc : f.Mem (2 * c)) (hlim : f.limit ≤ Real.exp (2 * c)) (h2B : 2 * B ≤ (2 : ℝ) ^ f.emax) :
    (batchEstimate fl R xs (fin n)).2 = nan := by
  have hf := hw.1
  have hn1 : (1 : ℝ) ≤ n := by exact_mod_cast hn
  have hn0 : (0 : ℝ) < n := by linarith
  have hkept : (xs.filter fun a => !a.isNegInf) = xs := by
    rw [List.filter_eq_self]
    intro x hx'
    obtain ⟨a, rfl, -⟩ := hx x hx'
    rfl
  have hne : xs ≠ [] := by rintro rfl; simp at hlen; omega
  -- the estimate
  have near := batch_near hw h R hn hlen (fun x hx' => by
    obtain ⟨a, rfl, ma, -, hb⟩ := hx x hx'
    exact ⟨Or.inr ⟨a, rfl, ma⟩, fun a' ha => by obtain rfl := fin.inj ha; exact hb⟩) hB hWB hW hn8 hBn hE
  have hsum : (n : ℝ) * Real.exp (c + 1) ≤ (xs.map expR).sum := by
    rw [← hlen]
    clear hlen hkept hne near
    induction xs with
    | nil => simp
    | cons x xs ih =>
      obtain ⟨a, rfl, -, ha, -⟩ := hx x (by simp)
      have h1 := ih fun y hy => hx y (by simp [hy])
      have h2 : Real.exp (c + 1) ≤ (fin a).expR := Real.exp_le_exp.2 ha
      simp only [List.map_cons, List.sum_cons, List.length_cons]
      push_cast
      linarith
  have hmean : Real.exp (c + 1) ≤ (xs.map expR).sum / n := by rw [le_div_iff₀ hn0]; linarith
  obtain ⟨r, er, hr⟩ : ∃ r, (batchEstimate fl R xs (fin n)).1 = fin r ∧ c ≤ r := by
    rcases near with ⟨e, -⟩ | ⟨h0, r, er, -, dr⟩
    · rw [e] at hmean
      exact absurd hmean (not_le.2 (Real.exp_pos _))
    · refine ⟨r, er, ?_⟩
      have h1 : c + 1 ≤ Real.log ((xs.map expR).sum / n) := by rw [Real.le_log_iff_exp_le h0]; exact hmean
      have h2 := (abs_le.1 dr).1
      linarith
  have first : rd fl (exp (Rounding.mul fl (fin 2) (batchEstimate fl R xs (fin n)).1)) = pinf := by
    refine exp_overflow h hlim ?_
    rw [er, Rounding.mul_def]
    rcases h.ge hc (show 2 * c ≤ 2 * r by linarith) with e | ⟨y, e, -, hy⟩
    · exact Or.inl e
    · exact Or.inr ⟨y, e, hy⟩
  -- the second moment
  set sq := xs.map fun a => Rounding.mul fl (fin 2) a with hsq
  have hbig : f.Mem ((2 : ℝ) ^ f.emax) := two_pow_mem hf (by have := hf.2.1; have := hf.2.2; omega) le_rfl
  have sqw : ∀ y ∈ sq, ∃ a, y = fin a ∧ f.Mem a ∧ 2 * c ≤ a := by
    intro y hy
    obtain ⟨x, hx', rfl⟩ := List.mem_map.1 hy
    obtain ⟨a, rfl, ma, ha, hb⟩ := hx x hx'
    rw [Rounding.mul_def]
    obtain ⟨z, ez, mz, hz, -⟩ := h.between hc hbig (show 2 * c ≤ 2 * a by linarith) (by have := le_abs_self a; linarith)
    exact ⟨z, ez, mz, hz⟩
  have sqW : ∀ y ∈ sq, Weight f y := fun y hy => by
    obtain ⟨a, e, m, -⟩ := sqw y hy
    exact Or.inr ⟨a, e, m⟩
  have sqpos : 0 < (sq.map expR).sum := by
    obtain ⟨x, xs', e⟩ := List.exists_cons_of_ne_nil (show sq ≠ [] by simpa [hsq] using hne)
    have hnn : ∀ y ∈ sq.map expR, 0 ≤ y := by
      intro y hy
      obtain ⟨x, -, rfl⟩ := List.mem_map.1 hy
      exact expR_nonneg x
    have hmem : x ∈ sq := by rw [e]; simp
    have h1 := List.single_le_sum hnn _ (List.mem_map_of_mem (f := expR) hmem)
    obtain ⟨a, rfl, -⟩ := sqw x hmem
    exact lt_of_lt_of_le (Real.exp_pos a) h1
  obtain ⟨M, hM⟩ := exists_largest_weight sqW sqpos
  have hM2 : 2 * c ≤ M := by
    obtain ⟨a, e, -, ha⟩ := sqw _ hM.1
    rw [fin.inj e]; exact ha
  have hfin : finites sq < 2 ^ f.p := by
    have h1 : finites sq ≤ n := by
      rw [← hlen, show xs.length = sq.length by simp [hsq]]
      exact List.length_filter_le _ _
    have h2 : (n : ℝ) < 2 ^ f.p := by linarith
    have h3 : n < 2 ^ f.p := by exact_mod_cast h2
    omega
  have second : rd fl (exp (RoundedLikelihood.logsumexp fl R sq)) = pinf := by
    refine exp_overflow h hlim ?_
    have hle := ((C109_logsumexp hf h R sq sqW hfin).2 M hM).1
    cases hl : RoundedLikelihood.logsumexp fl R sq with
    | fin y =>
      rw [hl] at hle
      have : M ≤ y := hle
      exact Or.inr ⟨y, rfl, by linarith⟩
    | pinf => exact Or.inl rfl
    | ninf => rw [hl] at hle; exact hle.elim
    | nan => rw [hl] at hle; exact hle.elim
  have e : (batchEstimate fl R xs (fin n)).2 = Rounding.div fl (Rounding.sub fl (Rounding.div fl (rd fl (exp (RoundedLikelihood.logsumexp fl R sq))) (fin n))
      (rd fl (exp (Rounding.mul fl (fin 2) (batchEstimate fl R xs (fin n)).1)))) (Rounding.sub fl (fin n) (fin 1)) := by
    simp only [batchEstimate, hkept, hsq]
  rw [e, first, second]
  have hd : Rounding.div fl pinf (fin (n : ℝ)) = pinf := by
    rw [Rounding.div]
    have : (pinf / fin (n : ℝ) : XR) = pinf := by
      show XR.div pinf (fin n) = pinf
      simp [XR.div, XR.mulInf, hn0, hn0.le]
    rw [this]; rfl
  rw [hd]
  rfl

theorem nan_over (x : XR) : (nan / x : XR) = nan := by cases x <;> rfl

theorem nan_error (fl : ℝ → XR) (v1 e1 e2 e3 N1 N2 : XR) : combineErrorsSq fl v1 nan e1 e2 e3 N1 N2 = nan := by
  simp [combineErrorsSq, Rounding.add, Rounding.mul, Rounding.div, Rounding.sub, rd, nan_over]

/-- If all weights of the first batch are so large that their squares overflow, the computed squared error is NaN and the loop stops after this one batch, whatever error was asked for and
however many batches are allowed; the estimate itself is close to the exact one. -/
theorem C109_error_overflow (hw : Wide f) (h : Nearest f fl) (R : Reduction) (n nMax : ℕ) (hn : 1 ≤ n) (minErrSq : ℝ) (draw : Key → List XR) (k : Key) {B W c : ℝ}
    (hB : 0 ≤ B) (hd : ∀ k, (draw k).length = n ∧ ∀ x ∈ draw k, ∃ a, x = fin a ∧ f.Mem a ∧ c + 1 ≤ a ∧ |a| ≤ B)
    (hWdef : W = B + Real.log (n : ℕ) + 4) (hW : W ≤ (2 : ℝ) ^ f.emax) (hBn : B + n ≤ (2 : ℝ) ^ f.emax) (hn8 : (8 : ℝ) * n ≤ 2 ^ f.p)
    (hE : (5 * n + 9 * W) / 2 ^ f.p ≤ 1) (hc : f.Mem (2 * c)) (hlim : f.limit ≤ Real.exp (2 * c)) (h2B : 2 * B ≤ (2 : ℝ) ^ f.emax) :
    (runEvent fl R n nMax minErrSq draw k).errSq = nan ∧ (runEvent fl R n nMax minErrSq draw k).N = fin n ∧
      Robust.Within ((5 * n + 9 * W) / 2 ^ f.p) (log (fin (mean (pool draw k 1)))) (runEvent fl R n nMax minErrSq draw k).logEst := by
  classical
  have hpp : (0 : ℝ) < 2 ^ f.p := by positivity
  have hn1 : (1 : ℝ) ≤ n := by exact_mod_cast hn
  have hl := Real.log_nonneg hn1
  have W0 : 0 ≤ W := by linarith
  have hE' : (5 * n + 3 * W) / 2 ^ f.p ≤ 1 := le_trans (div_le_div_of_nonneg_right (by linarith) hpp.le) hE
  have err : (body fl R n draw (State.init k)).errSq = nan := by
    have := batch_overflow hw h R hn (hd (Key.sub k 1)).1 (hd _).2 hB hWdef.ge hW hn8 hBn hE' hc hlim h2B
    simp only [body, State.init]
    rw [this, nan_error]
  have stop : runEvent fl R n nMax minErrSq draw k = body fl R n draw (State.init k) := by
    rw [runEvent]
    cases nMax - 1 with
    | zero => rfl
    | succ m =>
      rw [Analytic.whileLoop, if_neg]
      rw [err]
      rw [decide_eq_true_iff]
      exact id
  have hd' : ∀ c, (draw c).length = n ∧ ∀ x ∈ draw c, Weight f x ∧ ∀ a, x = fin a → |a| ≤ B := fun c' => ⟨(hd c').1, fun x hx => by
    obtain ⟨a, rfl, ma, -, hb⟩ := (hd c').2 x hx
    exact ⟨Or.inr ⟨a, rfl, ma⟩, fun a' ha => by obtain rfl := fin.inj ha; exact hb⟩⟩
  obtain ⟨-, l2, l3⟩ := loop_near hw h R n 1 hn draw hB hd' (W := W) (by rw [one_mul, hWdef]) hW (by rw [one_mul]; exact hn8) hBn
    (by refine le_trans (le_of_eq ?_) hE; push_cast; ring) k 1 le_rfl
  rw [stop]
  refine ⟨err, ?_, ?_⟩
  · have : (body fl R n draw (State.init k)).N = fin ((1 * n : ℕ) : ℝ) := l2
    rw [this, one_mul]
  · have l3 := l3.within
    rw [mean, pool_length fun c => (hd' c).1]
    convert l3 using 1
    · push_cast; ring
    · rfl

/-- In single precision: weights `exp 66` are enough. -/
example (fl : ℝ → XR) (h : Nearest single fl) (R : Reduction) (k : Key) :
    (runEvent fl R 100 10 (1 / 100) (fun _ => List.replicate 100 (fin 66)) k).errSq = nan ∧ (runEvent fl R 100 10 (1 / 100) (fun _ => List.replicate 100 (fin 66)) k).N = fin (100 : ℕ) := by
  have hm : ∀ m : ℕ, m < 2 ^ single.p → single.Mem m := fun m hm => mem_nat wide_single.1 hm
  have big : (2048 : ℝ) ≤ (2 : ℝ) ^ single.emax := by
    rw [show (2048 : ℝ) = 2 ^ (11 : ℤ) by norm_num]; exact zpow_le_zpow_right₀ (by norm_num) (by decide)
  have h2 : (2 : ℝ) ≤ Real.exp 1 := by have := Real.add_one_le_exp (1 : ℝ); linarith
  have hl : Real.log ((100 : ℕ) : ℝ) ≤ 10 := by
    rw [Real.log_le_iff_le_exp (by norm_num)]
    calc (((100 : ℕ) : ℝ)) ≤ 2 ^ 10 := by norm_num
      _ ≤ Real.exp 1 ^ 10 := pow_le_pow_left₀ (by norm_num) h2 10
      _ = Real.exp 10 := by rw [← Real.exp_nat_mul]; norm_num
  obtain ⟨h1, h3, -⟩ := C109_error_overflow wide_single h R 100 10 (by norm_num) (1 / 100) (fun _ => List.replicate 100 (fin 66)) k (B := 66) (c := 65) (by norm_num)
    (by
      intro c
      refine ⟨by simp, fun x hx => ?_⟩
      obtain rfl := List.eq_of_mem_replicate hx
      exact ⟨66, rfl, by simpa using hm 66 (by norm_num [single]), by norm_num, by norm_num⟩)
    rfl (by linarith) (by norm_num; linarith) (by norm_num [single])
    (by rw [show single.p = 24 from rfl, div_le_one (by positivity)]; push_cast at hl ⊢; linarith)
    (by have := hm 130 (by norm_num [single]); norm_num at this ⊢; exact this)
    (by
      calc single.limit ≤ (2 : ℝ) ^ 130 := by
            norm_num [Format.limit, single]
        _ ≤ Real.exp 1 ^ 130 := pow_le_pow_left₀ (by norm_num) h2 130
        _ = Real.exp (2 * 65) := by rw [← Real.exp_nat_mul]; norm_num)
    (by linarith)
  exact ⟨h1, h3⟩

end GW.RoundedAnalytic
