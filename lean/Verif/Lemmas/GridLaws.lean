import Verif.Lemmas.GridNorm
import Verif.Spec.GridNorm

/-! The primary-mass laws: peaks and variation. -/

namespace GW.Hybrids
open Set MeasureTheory ProbabilityTheory GW
open scoped Classical

/-- The laws a primary mass can have. -/
inductive OneMass : Law → Prop
  | powerlaw (a l h : ℝ) : OneMass (.powerlaw a l h)
  | broken (a1 a2 b l h : ℝ) : OneMass (.broken a1 a2 b l h)
  | normal (m s : ℝ) (l h : Option ℝ) : OneMass (.normal m s l h)

theorem oneMass_of {f : Factor} (h1 : f.cls ∈ massClasses) (h2 : f.quantities = ["mass_1_source"]) {L : Law} (h : lawOf f = some L) : OneMass L := by
  simp only [massClasses, List.mem_cons, List.not_mem_nil, or_false] at h1
  unfold lawOf at h
  rcases h1 with h1 | h1 | h1 <;> (rw [h1, h2] at h; injection h with h; subst h; constructor)

theorem brokenShape_nonneg {a1 a2 b m : ℝ} (hb : 0 < b) (hm : 0 ≤ m) : 0 ≤ brokenShape a1 a2 b m := Real.rpow_nonneg (div_nonneg hm hb.le) _

theorem ordConnected_bounds (l h : Option ℝ) : (Spin.bounds l h).OrdConnected := by
  unfold Spin.bounds
  split
  · exact ordConnected_Icc
  · exact ordConnected_Ioi
  · exact ordConnected_Iio
  · exact ordConnected_univ

theorem rpow_le_max_ends {l h x α : ℝ} (hl : 0 < l) (h1 : l ≤ x) (h2 : x ≤ h) : x ^ α ≤ max (l ^ α) (h ^ α) := by
  rcases le_total 0 α with k | k
  · exact (Real.rpow_le_rpow (by linarith) h2 k).trans (le_max_right _ _)
  · exact (Real.rpow_le_rpow_of_nonpos hl h1 k).trans (le_max_left _ _)

theorem oneMass_peak {dV : ℝ → ℝ} {L : Law} (hL : OneMass L) (hp : L.Proper) : 0 ≤ L.peak ∧ ∀ m, 0 ≤ L.density dV [m] ∧ L.density dV [m] ≤ L.peak := by
  cases hL with
  | powerlaw a l h =>
    obtain ⟨p1, p2⟩ := hp
    have hJ : 0 ≤ ∫ t in l..h, t ^ a := intervalIntegral.integral_nonneg p2.le fun u hu => Real.rpow_nonneg (p1.le.trans hu.1) _
    have h0 : 0 ≤ Law.peak (.powerlaw a l h) := div_nonneg (le_max_of_le_left (Real.rpow_nonneg p1.le _)) hJ
    refine ⟨h0, fun m => ?_⟩
    simp only [Law.density]
    split_ifs with k
    · exact ⟨div_nonneg (Real.rpow_nonneg (p1.le.trans k.1) _) hJ, div_le_div_of_nonneg_right (rpow_le_max_ends p1 k.1 k.2) hJ⟩
    · exact ⟨le_rfl, h0⟩
  | broken a1 a2 b l h =>
    obtain ⟨p1, p2, p3⟩ := hp
    have hb : 0 < b := p1.trans p2
    have hJ : 0 ≤ ∫ t in l..h, brokenShape a1 a2 b t := intervalIntegral.integral_nonneg (by linarith) fun u hu => brokenShape_nonneg hb (p1.le.trans hu.1)
    have h0 : 0 ≤ Law.peak (.broken a1 a2 b l h) := div_nonneg (le_max_of_le_left zero_le_one) hJ
    refine ⟨h0, fun m => ?_⟩
    simp only [Law.density]
    split_ifs with k
    · refine ⟨div_nonneg (brokenShape_nonneg hb (p1.le.trans k.1)) hJ, div_le_div_of_nonneg_right ?_ hJ⟩
      unfold brokenShape
      split_ifs with j
      · refine (rpow_le_max_ends (l := l / b) (h := 1) (div_pos p1 hb) (div_le_div_of_nonneg_right k.1 hb.le) ((div_le_one hb).2 j.le)).trans ?_
        rw [Real.one_rpow, max_comm]
        exact max_le_max le_rfl (le_max_left _ _)
      · refine (rpow_le_max_ends (l := 1) (h := h / b) one_pos ((one_le_div hb).2 (not_lt.1 j)) (div_le_div_of_nonneg_right k.2 hb.le)).trans ?_
        rw [Real.one_rpow]
        exact max_le_max le_rfl (le_max_right _ _)
    · exact ⟨le_rfl, h0⟩
  | normal m s l h =>
    have hJ : 0 ≤ ∫ y in Spin.bounds l h, Spin.normalDensity m s y := integral_nonneg fun y => (Spin.normalDensity_pos hp.1 y).le
    have h0 : 0 ≤ Law.peak (.normal m s l h) := div_nonneg (Spin.normalDensity_pos hp.1 m).le hJ
    refine ⟨h0, fun x => ⟨Spin.restrictedNormal_nonneg _ _ _ _, ?_⟩⟩
    simp only [Law.density, Spin.restrictedNormal]
    split_ifs with k
    · refine div_le_div_of_nonneg_right ?_ hJ
      unfold Spin.normalDensity gaussianPDFReal
      refine mul_le_mul_of_nonneg_left (Real.exp_le_exp.2 (div_le_div_of_nonneg_right ?_ (by positivity))) (by positivity)
      rw [sub_self]
      have := sq_nonneg (x - m)
      linarith
    · exact h0

theorem oneMass_varLe {dV : ℝ → ℝ} {L : Law} (hL : OneMass L) (hp : L.Proper) (a b : ℝ) : VarLe (fun m => L.density dV [m]) a b (4 * L.peak) := by
  obtain ⟨h0, hpk⟩ := oneMass_peak (dV := dV) hL hp
  cases hL with
  | powerlaw α l h =>
    obtain ⟨p1, p2⟩ := hp
    have hJ : 0 ≤ ∫ t in l..h, t ^ α := intervalIntegral.integral_nonneg p2.le fun u hu => Real.rpow_nonneg (p1.le.trans hu.1) _
    refine (Peaked.varLe (g := fun x => (∫ t in l..h, t ^ α)⁻¹ * x ^ α) (s := Icc l h) ordConnected_Icc (peaked_rpow α _ (inv_nonneg.2 hJ) fun x hx => p1.trans_le hx.1)
      (fun x hx => ?_) (fun x hx => ?_) h0 (fun x => (hpk x).1) fun x _ _ => (hpk x).2).le (by linarith)
    · simp only [Law.density]
      rw [if_pos (show l ≤ x ∧ x ≤ h from hx)]
      ring
    · simp only [Law.density]
      rw [if_neg (show ¬ (l ≤ x ∧ x ≤ h) from hx)]
  | broken a1 a2 br l h =>
    obtain ⟨p1, p2, p3⟩ := hp
    have hb : 0 < br := p1.trans p2
    set J := ∫ t in l..h, brokenShape a1 a2 br t with hJd
    have hJ : 0 ≤ J := intervalIntegral.integral_nonneg (by linarith) fun u hu => brokenShape_nonneg hb (p1.le.trans hu.1)
    have half : ∀ (s : Set ℝ) (α : ℝ), s.OrdConnected → s ⊆ Icc l h → (∀ x ∈ s, brokenShape a1 a2 br x = (x / br) ^ (-α)) →
        VarLe (fun m => if m ∈ s then Law.density dV (.broken a1 a2 br l h) [m] else 0) a b (2 * Law.peak (.broken a1 a2 br l h)) := by
      intro s α hs hsub he
      have hpos : ∀ x ∈ s, 0 < x := fun x hx => p1.trans_le (hsub hx).1
      refine Peaked.varLe (g := fun x => (J⁻¹ * br ^ α) * x ^ (-α)) (s := s) hs (peaked_rpow (-α) _ (mul_nonneg (inv_nonneg.2 hJ) (Real.rpow_nonneg hb.le _)) hpos)
        (fun x hx => ?_) (fun x hx => by simp [hx]) h0 (fun x => ?_) fun x _ _ => ?_
      · simp only [hx, if_true, Law.density]
        rw [if_pos (show l ≤ x ∧ x ≤ h from hsub hx), he x hx, Real.div_rpow (hpos x hx).le hb.le, Real.rpow_neg hb.le, ← hJd]
        field_simp
      · split_ifs
        · exact (hpk x).1
        · exact le_rfl
      · split_ifs
        · exact (hpk x).2
        · exact h0
    have v1 := half (Ico l br) a1 ordConnected_Ico (fun x hx => ⟨hx.1, by linarith [hx.2]⟩) fun x hx => by simp [brokenShape, hx.2]
    have v2 := half (Icc br h) a2 ordConnected_Icc (fun x hx => ⟨by linarith [hx.1], hx.2⟩) fun x hx => by simp [brokenShape, not_lt.2 hx.1]
    refine ((v1.add v2).le (by linarith)).congr fun x _ _ => ?_
    by_cases k1 : x ∈ Ico l br
    · have k2 : x ∉ Icc br h := fun k => absurd k.1 (not_le.2 k1.2)
      simp [k1, k2]
    · by_cases k2 : x ∈ Icc br h
      · simp [k1, k2]
      · have : ¬ (l ≤ x ∧ x ≤ h) := by
          rintro ⟨q1, q2⟩
          rcases lt_or_ge x br with j | j
          · exact k1 ⟨q1, j⟩
          · exact k2 ⟨j, q2⟩
        simp [k1, k2, Law.density, this]
  | normal m s l h =>
    have hJ : 0 ≤ ∫ y in Spin.bounds l h, Spin.normalDensity m s y := integral_nonneg fun y => (Spin.normalDensity_pos hp.1 y).le
    refine (Peaked.varLe (g := fun x => (∫ y in Spin.bounds l h, Spin.normalDensity m s y)⁻¹ * gaussianPDFReal m (s ^ 2).toNNReal x) (s := Spin.bounds l h) (ordConnected_bounds l h)
      (peaked_gauss _ _ _ (inv_nonneg.2 hJ) _) (fun x hx => ?_) (fun x hx => ?_) h0 (fun x => (hpk x).1) fun x _ _ => (hpk x).2).le (by linarith)
    · simp only [Law.density, Spin.restrictedNormal]
      rw [if_pos hx, Spin.normalDensity]
      ring
    · simp only [Law.density, Spin.restrictedNormal]
      rw [if_neg hx]

/-- Every component begins with a proper law of one mass. -/
def Heads (laws : List (List Law)) : Prop := ∀ ls ∈ laws, ∃ L rest, ls = L :: rest ∧ OneMass L ∧ L.Proper

theorem mixture_varLe {dV : ℝ → ℝ} (a b : ℝ) : ∀ {weights : List ℝ} {laws : List (List Law)}, (∀ w ∈ weights, 0 ≤ w) → Heads laws →
    0 ≤ peakMixture weights laws ∧ VarLe (massMixture dV weights laws) a b (4 * peakMixture weights laws) ∧
    ∀ m, 0 ≤ massMixture dV weights laws m ∧ massMixture dV weights laws m ≤ peakMixture weights laws := by
  intro weights
  induction weights with
  | nil =>
    intro laws _ _
    have e1 : massMixture dV [] laws = fun _ => 0 := by funext m; simp [massMixture, weighted]
    have e2 : peakMixture [] laws = 0 := by simp [peakMixture, weighted]
    rw [e1, e2]
    exact ⟨le_rfl, by simpa using VarLe.zero, fun _ => ⟨le_rfl, le_rfl⟩⟩
  | cons w ws ih =>
    intro laws hw hH
    cases laws with
    | nil =>
      have e1 : massMixture dV (w :: ws) [] = fun _ => 0 := by funext m; simp [massMixture, weighted]
      have e2 : peakMixture (w :: ws) [] = 0 := by simp [peakMixture, weighted]
      rw [e1, e2]
      exact ⟨le_rfl, by simpa using VarLe.zero, fun _ => ⟨le_rfl, le_rfl⟩⟩
    | cons ls lss =>
      obtain ⟨i1, i2, i3⟩ := ih (laws := lss) (fun w' hw' => hw w' (by simp [hw'])) fun l hl => hH l (by simp [hl])
      obtain ⟨L, rest, rfl, hL, hp⟩ := hH ls (by simp)
      have hw0 := hw w (by simp)
      obtain ⟨q0, q1⟩ := oneMass_peak (dV := dV) hL hp
      have e1 : massMixture dV (w :: ws) ((L :: rest) :: lss) = fun m => w * L.density dV [m] + massMixture dV ws lss m := by
        funext m
        simp [massMixture, weighted]
      have e2 : peakMixture (w :: ws) ((L :: rest) :: lss) = w * L.peak + peakMixture ws lss := by simp [peakMixture, weighted]
      rw [e1, e2]
      refine ⟨add_nonneg (mul_nonneg hw0 q0) i1, ?_, fun m => ⟨add_nonneg (mul_nonneg hw0 (q1 m).1) (i3 m).1, add_le_add (mul_le_mul_of_nonneg_left (q1 m).2 hw0) (i3 m).2⟩⟩
      exact (((oneMass_varLe hL hp a b).const_mul hw0).add i2).le (by linarith)

theorem heads_of_begins {use : Flag → Bool} {n : ℕ} {ms : List Factor} {cs : List (List Factor)} (hb : List.Forall₂ (Begins use n) ms cs) {laws : List (List Law)}
    (hl : HaveLaws cs laws) (hp : ∀ ls ∈ laws, ∀ L ∈ ls, L.Proper) : Heads laws := by
  intro ls hls
  obtain ⟨fs, hfs, hL⟩ := forall₂_right hl ls hls
  obtain ⟨f, -, hf⟩ := forall₂_right hb fs hfs
  obtain ⟨r, rfl⟩ := hf.head
  cases hL with
  | @cons _ L _ rest h1 _ => exact ⟨L, rest, rfl, oneMass_of hf.cls hf.quantities h1, hp _ hls L (by simp)⟩

end GW.Hybrids
