import Verif.Model.RoundedJoint
import Verif.Lemmas.RoundedEnd

/-! # Sums of log densities in rounded arithmetic: lemmas -/

namespace GW.RoundedLikelihood
open GW XR Rounding
open GW.Robust (Within)

variable {f : Format} {fl : ℝ → XR}

/-- One step: the size of what is left grows by the rounding only. -/
theorem step_size {u c c' a T : ℝ} (hu : 0 ≤ u) (h : |c' - (c + a)| ≤ |c + a| * u) (hT : 0 ≤ T) : |c'| + T ≤ (1 + u) * (|c| + (|a| + T)) := by
  have h1 := abs_add_le c a
  have h2 := abs_sub_abs_le_abs_sub c' (c + a)
  have h3 : |c + a| * u ≤ (|c| + |a|) * u := mul_le_mul_of_nonneg_right h1 hu
  have h4 : 0 ≤ u * T := mul_nonneg hu hT
  linarith

theorem sum_abs_nonneg (as : List ℝ) : 0 ≤ (as.map fun a => |a|).sum := List.sum_nonneg (by
  intro x hx
  obtain ⟨a, -, rfl⟩ := List.mem_map.1 hx
  exact abs_nonneg a)

theorem first_step (hf : f.Usable) (h : Nearest f fl) {c a T : ℝ} {k : ℕ} (hc : f.Mem c) (ha : f.Mem a) (hT : 0 ≤ T)
    (hb : (1 + 1 / 2 ^ f.p) ^ (k + 1) * (|c| + (|a| + T)) ≤ (2 : ℝ) ^ f.emax) :
    ∃ c', Rounding.add fl (fin c) (fin a) = fin c' ∧ f.Mem c' ∧ |c' - (c + a)| ≤ |c + a| * (1 / 2 ^ f.p) ∧
      (1 + 1 / 2 ^ f.p) ^ k * (|c'| + T) ≤ (2 : ℝ) ^ f.emax := by
  have u0 : (0 : ℝ) ≤ 1 / 2 ^ f.p := by positivity
  have hS : 0 ≤ |c| + (|a| + T) := by positivity
  have p1 : (1 : ℝ) ≤ (1 + 1 / 2 ^ f.p) ^ (k + 1) := one_le_pow₀ (by linarith)
  have hca : |c + a| ≤ (2 : ℝ) ^ f.emax := by
    have h1 := abs_add_le c a
    have h2 := le_mul_of_one_le_left hS p1
    linarith
  obtain ⟨c', e, m, d⟩ := Nearest.err_add hf h hc ha hca
  rw [div_eq_mul_one_div] at d
  refine ⟨c', e, m, d, ?_⟩
  have := mul_le_mul_of_nonneg_left (step_size u0 d hT) (pow_nonneg (show (0 : ℝ) ≤ 1 + 1 / 2 ^ f.p by linarith) k)
  rw [← mul_assoc, ← pow_succ] at this
  linarith

theorem fold_finite (hf : f.Usable) (h : Nearest f fl) : ∀ (as : List ℝ) (c : ℝ), f.Mem c → (∀ a ∈ as, f.Mem a) →
    (1 + 1 / 2 ^ f.p) ^ as.length * (|c| + (as.map fun a => |a|).sum) ≤ (2 : ℝ) ^ f.emax →
    ∃ r, (as.map fin).foldl (fun acc l => Rounding.add fl acc l) (fin c) = fin r ∧ f.Mem r ∧
      |r - (c + as.sum)| ≤ ((1 + 1 / 2 ^ f.p) ^ as.length - 1) * (|c| + (as.map fun a => |a|).sum)
  | [], c, hc, _, _ => ⟨c, rfl, hc, by simp⟩
  | a :: as, c, hc, ha, hb => by
    have T0 := sum_abs_nonneg as
    have u0 : (0 : ℝ) ≤ 1 / 2 ^ f.p := by positivity
    simp only [List.map_cons, List.sum_cons, List.length_cons] at hb ⊢
    obtain ⟨c', e, m, d, hb'⟩ := first_step hf h hc (ha a (by simp)) T0 hb
    obtain ⟨r, er, mr, dr⟩ := fold_finite hf h as c' m (fun b hb => ha b (by simp [hb])) hb'
    refine ⟨r, by rw [List.foldl_cons, e]; exact er, mr, ?_⟩
    set u : ℝ := 1 / 2 ^ f.p with hu
    set T := (as.map fun a => |a|).sum
    have P : 1 ≤ (1 + u) ^ as.length := one_le_pow₀ (by linarith)
    have s1 := mul_le_mul_of_nonneg_left (step_size u0 d T0) (show (0 : ℝ) ≤ (1 + u) ^ as.length - 1 by linarith)
    have s2 : |c + a| * u ≤ (|c| + (|a| + T)) * u := mul_le_mul_of_nonneg_right (by linarith [abs_add_le c a]) u0
    have s3 := abs_add_le (r - (c' + as.sum)) (c' - (c + a))
    rw [show r - (c' + as.sum) + (c' - (c + a)) = r - (c + (a + as.sum)) by ring] at s3
    have s4 : ((1 + u) ^ as.length - 1) * ((1 + u) * (|c| + (|a| + T))) + (|c| + (|a| + T)) * u = ((1 + u) ^ (as.length + 1) - 1) * (|c| + (|a| + T)) := by
      rw [pow_succ]; ring
    linarith

theorem fold_ninf : ∀ ys : List XR, (∀ y ∈ ys, Weight f y) → ys.foldl (fun acc l => Rounding.add fl acc l) ninf = ninf
  | [], _ => rfl
  | y :: ys, h => by
    rw [List.foldl_cons]
    have : Rounding.add fl ninf y = ninf := by
      rcases h y (by simp) with rfl | ⟨a, rfl, -⟩ <;> rfl
    rw [this]
    exact fold_ninf ys fun z hz => h z (by simp [hz])

/-- The finite entries are at most `b` in size. -/
theorem fold_some_ninf (hf : f.Usable) (h : Nearest f fl) {b : ℝ} (hb0 : 0 ≤ b) : ∀ (ys : List XR) (c : ℝ), f.Mem c → (∀ y ∈ ys, Weight f y) → ninf ∈ ys →
    (∀ a, fin a ∈ ys → |a| ≤ b) → (1 + 1 / 2 ^ f.p) ^ ys.length * (|c| + ys.length * b) ≤ (2 : ℝ) ^ f.emax →
    ys.foldl (fun acc l => Rounding.add fl acc l) (fin c) = ninf
  | [], c, _, _, hn, _, _ => by simp at hn
  | y :: ys, c, hc, hw, hn, hab, hb => by
    rw [List.foldl_cons]
    rcases hw y (by simp) with rfl | ⟨a, rfl, ma⟩
    · exact fold_ninf ys fun z hz => hw z (by simp [hz])
    · have ha := hab a (by simp)
      have u0 : (0 : ℝ) ≤ 1 / 2 ^ f.p := by positivity
      obtain ⟨c', e, m, d, hb'⟩ := first_step (k := ys.length) (T := ys.length * b) hf h hc ma (by positivity) (by
        refine le_trans ?_ hb
        rw [List.length_cons]
        push_cast
        refine mul_le_mul_of_nonneg_left ?_ (by positivity)
        linarith)
      rw [e]
      refine fold_some_ninf hf h hb0 ys c' m (fun z hz => hw z (by simp [hz])) ?_ (fun a' ha' => hab a' (by simp [ha'])) hb'
      rcases List.mem_cons.1 hn with hn | hn
      · cases hn
      · exact hn

end GW.RoundedLikelihood
