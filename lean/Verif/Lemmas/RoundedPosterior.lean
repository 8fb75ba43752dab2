import Verif.Lemmas.RoundedLikelihood

/-!
# Accuracy of the rounded `logsumexp` and of the rounded posterior
-/

namespace GW.RoundedLikelihood
open GW XR Rounding

variable {f : Format} {fl : ℝ → XR}

theorem finites_append (a b : List XR) : finites (a ++ b) = finites a + finites b := by simp [finites]
theorem finites_cons (x : XR) (b : List XR) : finites (x :: b) = finites [x] + finites b := finites_append [x] b

theorem terms_close (hw : Wide f) (h : Nearest f fl) {M : ℝ} (hM : f.Mem M) (ys : List XR) (hy : ∀ x ∈ ys, Weight f x) (hl : ∀ x ∈ ys, XR.le x (fin M)) :
    |vals (ys.map (term fl M)) - (ys.map expR).sum * Real.exp (-M)| ≤ finites ys * (3 / 2 / 2 ^ f.p) ∧ 0 ≤ vals (ys.map (term fl M)) ∧
      vals (ys.map (term fl M)) ≤ finites ys ∧ mags (ys.map (term fl M)) = vals (ys.map (term fl M)) := by
  induction ys with
  | nil => simp [vals, mags, finites]
  | cons y ys ih =>
    obtain ⟨i1, i2, i3, i4⟩ := ih (fun x hx => hy x (by simp [hx])) (fun x hx => hl x (by simp [hx]))
    have e1 : vals ((y :: ys).map (term fl M)) = val (term fl M y) + vals (ys.map (term fl M)) := by simp [vals]
    have e2 : mags ((y :: ys).map (term fl M)) = |val (term fl M y)| + mags (ys.map (term fl M)) := by simp [mags]
    rw [e1, e2, i4, finites_cons, List.map_cons, List.sum_cons]
    rcases hy y (by simp) with rfl | ⟨a, rfl, ha⟩
    · rw [term_ninf hw.1 h M]
      simpa [val, finites] using ⟨i1, i2, i3⟩
    · obtain ⟨z, ez, -, z0, z1⟩ := term_unit hw.1 h (show a ≤ M from hl (fin a) (by simp))
      have hc := term_close hw h hM ha (hl (fin a) (by simp)) ez
      rw [ez]
      have ef : finites [fin a] = 1 := rfl
      simp only [val, ef, expR_fin]
      push_cast
      refine ⟨?_, by linarith, by linarith, by rw [abs_of_nonneg z0]⟩
      have e3 : z + vals (ys.map (term fl M)) - (Real.exp a + (ys.map expR).sum) * Real.exp (-M) =
          (z - Real.exp (a - M)) + (vals (ys.map (term fl M)) - (ys.map expR).sum * Real.exp (-M)) := by
        rw [sub_eq_add_neg a M, Real.exp_add]; ring
      rw [e3]
      refine (abs_add_le _ _).trans ?_
      linarith

theorem log_sub_le {a b : ℝ} (ha : 1 ≤ a) (hb : 1 ≤ b) : |Real.log a - Real.log b| ≤ |a - b| := by
  have key : ∀ {a b : ℝ}, 1 ≤ a → 1 ≤ b → Real.log a - Real.log b ≤ |a - b| := by
    intro a b ha hb
    rw [← Real.log_div (by linarith) (by linarith)]
    have h1 := Real.log_le_sub_one_of_pos (show 0 < a / b by positivity)
    have h2 : a / b - 1 = (a - b) / b := by rw [sub_div, div_self (by linarith)]
    have h3 : (a - b) / b ≤ |a - b| := by
      rw [div_le_iff₀ (by linarith)]
      nlinarith [le_abs_self (a - b), abs_nonneg (a - b)]
    linarith
  rw [abs_le]
  constructor
  · have := key hb ha
    rw [abs_sub_comm] at this; linarith
  · exact key ha hb

theorem log_rel {s V g : ℝ} (hV : 0 < V) (hg : 0 ≤ g) (hg1 : g ≤ 9 / 64) (h : |s - V| ≤ g * V) : |Real.log s - Real.log V| ≤ 64 / 55 * g := by
  obtain ⟨h1, h2⟩ := abs_le.1 h
  have hs : 0 < s := by nlinarith
  rw [← Real.log_div hs.ne' hV.ne']
  have a1 : s / V ≤ 1 + g := by rw [div_le_iff₀ hV]; linarith
  have a2 : 1 - g ≤ s / V := by rw [le_div_iff₀ hV]; linarith
  have hsv : 0 < s / V := by positivity
  rw [abs_le]
  constructor
  · have := Real.one_sub_inv_le_log_of_pos hsv
    have h3 : (s / V)⁻¹ ≤ 1 + 64 / 55 * g := by
      rw [inv_le_comm₀ hsv (by positivity)]
      refine le_trans ?_ a2
      rw [inv_le_iff_one_le_mul₀ (by positivity)]
      nlinarith
    linarith
  · have := Real.log_le_sub_one_of_pos hsv
    linarith

/-- The rounded `logsumexp` is accurate. -/
theorem logsumexp_accurate (hw : Wide f) (h : Nearest f fl) (R : Reduction) {xs : List XR} {M : ℝ} (hx : ∀ x ∈ xs, Weight f x) (hM : Largest xs M)
    (hn : (8 : ℝ) * finites xs ≤ 2 ^ f.p) (hb : |M| + finites xs ≤ (2 : ℝ) ^ f.emax) :
    ∃ r, logsumexp fl R xs = fin r ∧ f.Mem r ∧ |r| ≤ 2 * (|M| + finites xs) ∧ |r - exactLog xs| ≤ (5 * ((finites xs : ℝ) - 1) + |M|) / 2 ^ f.p := by
  have hf := hw.1
  have h8 := pow_ge_eight hf
  have hpp : (0 : ℝ) < 2 ^ f.p := by positivity
  set u : ℝ := 1 / 2 ^ f.p with hu
  have hu0 : 0 < u := by positivity
  have hMm : f.Mem M := by
    rcases hx _ hM.1 with e | ⟨a, e, ha⟩
    · cases e
    · injection e with e; rwa [e]
  -- split off the largest entry
  obtain ⟨l1, l2, rfl⟩ := List.append_of_mem hM.1
  set ys := l1 ++ l2 with hys
  have hperm : (l1 ++ fin M :: l2).Perm (fin M :: ys) := List.perm_middle
  set n := finites (l1 ++ fin M :: l2) with hnd
  have en : n = finites ys + 1 := by
    rw [hnd, finites_append, finites_cons, hys, finites_append]
    have : finites [fin M] = 1 := rfl
    omega
  have hm : (finites ys : ℝ) = n - 1 := by rw [en]; push_cast; ring
  obtain ⟨c1, c2, c3, c4⟩ := terms_close hw h hMm ys
    (fun x hx' => hx x (hperm.mem_iff.2 (by simp [hx']))) (fun x hx' => hM.2 x (hperm.mem_iff.2 (by simp [hx'])))
  set V := 1 + vals (ys.map (term fl M)) with hV
  set T := 1 + (ys.map expR).sum * Real.exp (-M) with hT
  have eS : ((l1 ++ fin M :: l2).map expR).sum = T * Real.exp M := by
    rw [(hperm.map expR).sum_eq, List.map_cons, List.sum_cons, expR_fin, hT, add_mul, one_mul, mul_assoc, ← Real.exp_add]
    simp
  have hsum0 : 0 ≤ (ys.map expR).sum * Real.exp (-M) := mul_nonneg (sum_expR_nonneg ys) (Real.exp_pos _).le
  have eL : exactLog (l1 ++ fin M :: l2) = Real.log T + M := by
    rw [exactLog, eS, Real.log_mul (by rw [hT]; linarith) (Real.exp_pos _).ne', Real.log_exp]
  -- the rounded sum
  have hperm2 : ((l1 ++ fin M :: l2).map (term fl M)).Perm (fin 1 :: ys.map (term fl M)) := by
    have := hperm.map (term fl M)
    rwa [List.map_cons, term_max hf h M] at this
  obtain ⟨k, hk⟩ := R.uses ((l1 ++ fin M :: l2).map (term fl M))
  have hk2 := hk.trans (hperm2.append_right _)
  set t := R.tree ((l1 ++ fin M :: l2).map (term fl M)) with ht
  have v1 : vals t.leaves = V := by
    rw [vals_perm hk2, vals_append, vals_zeros, add_zero, hV]; simp [vals, val]
  have v2 : mags t.leaves = V := by
    rw [mags_perm hk2, mags_append, mags_zeros, add_zero, hV, ← c4]; simp [mags, val]
  have v3 : nz t.leaves ≤ n := by
    rw [nz_perm hk, nz_append, nz_zeros, add_zero]; exact nz_terms hf h M hx
  have hnu : n * u ≤ 1 / 8 := by rw [hu, mul_one_div, div_le_iff₀ hpp]; linarith
  have hn1 : (1 : ℝ) ≤ n := by rw [en]; push_cast; linarith [(finites ys).cast_nonneg (α := ℝ)]
  have gro : ∀ m : ℕ, m ≤ n → (1 + u) ^ m - 1 ≤ 9 / 8 * (m * u) := fun m hm' =>
    growth hu0.le m (le_trans (mul_le_mul_of_nonneg_right (by exact_mod_cast hm') hu0.le) hnu)
  have hVn : V ≤ n := by rw [hV]; linarith
  have hemax : (2 : ℝ) ^ f.p ≤ 2 ^ f.emax := by
    rw [← zpow_natCast]; exact zpow_le_zpow_right₀ (by norm_num) (by have := hw.2.2; omega)
  have hnzu : (nz t.leaves : ℝ) * u ≤ 1 / 8 := le_trans (mul_le_mul_of_nonneg_right (by exact_mod_cast v3) hu0.le) hnu
  obtain ⟨s, es, ms, ds, -⟩ := tree_sum hf h t (by
    intro x hx'
    rcases List.mem_append.1 (hk.subset hx') with h1 | h1
    · obtain ⟨y, hy, rfl⟩ := List.mem_map.1 h1
      obtain ⟨z, ez, mz, -, -⟩ := term_weight hf h (hx y hy) (hM.2 y hy)
      exact ⟨z, ez, mz⟩
    · rw [List.eq_of_mem_replicate h1]
      exact ⟨0, rfl, mem_zero hf⟩) (by
    rw [v2]
    have := gro _ v3
    have h2 : (1 + u) ^ nz t.leaves ≤ 2 := by linarith
    have : (1 + u) ^ nz t.leaves * V ≤ 2 * n := mul_le_mul h2 hVn (by rw [hV]; linarith) (by norm_num)
    linarith)
  obtain ⟨s', es', -, s1, s2⟩ := sum_bounds hf h R hx hM (by
    have : (n : ℝ) < 2 ^ f.p := by linarith
    exact_mod_cast this)
  have : s' = s := by
    have e : sum fl R ((l1 ++ fin M :: l2).map (term fl M)) = fin s := es
    rw [e] at es'
    injection es' with e; exact e.symm
  subst this
  rw [v1, v2] at ds
  have hV1 : 1 ≤ V := by rw [hV]; linarith
  have hT1 : 1 ≤ T := by rw [hT]; linarith
  have ds' : |s' - V| ≤ 9 / 8 * ((n - 1) * u) * V := by
    refine ds.trans (mul_le_mul_of_nonneg_right ?_ (by linarith))
    refine (gro (nz t.leaves - 1) (by omega)).trans ?_
    have : ((nz t.leaves - 1 : ℕ) : ℝ) ≤ n - 1 := by
      have h1 : nz t.leaves - 1 ≤ n - 1 := by omega
      have h2 : ((n - 1 : ℕ) : ℝ) = n - 1 := by push_cast [Nat.cast_sub (show 1 ≤ n by omega)]; ring
      rw [← h2]; exact_mod_cast h1
    gcongr
  have hn1u : 0 ≤ ((n : ℝ) - 1) * u := mul_nonneg (by linarith) hu0.le
  have b1 := log_rel (by linarith) (by positivity) (by nlinarith) ds'
  have b2 := log_sub_le hV1 hT1
  have b3 : |V - T| ≤ 3 / 2 * ((n - 1) * u) := by
    have : V - T = vals (ys.map (term fl M)) - (ys.map expR).sum * Real.exp (-M) := by rw [hV, hT]; ring
    rw [this]
    refine c1.trans (le_of_eq ?_)
    rw [hm, hu]; ring
  -- the logarithm
  have hs0 : 0 < s' := by linarith
  have l0 : 0 ≤ Real.log s' := Real.log_nonneg s1
  have lle : Real.log s' ≤ n - 1 := (Real.log_le_sub_one_of_pos hs0).trans (by linarith)
  have hnat : f.Mem ((n : ℝ) - 1) := by
    have := mem_nat hf (n := n - 1) (by
      have : (n : ℝ) < 2 ^ f.p := by linarith
      have : n < 2 ^ f.p := by exact_mod_cast this
      omega)
    rwa [Nat.cast_sub (by omega), Nat.cast_one] at this
  obtain ⟨l, el, ml, la, lb⟩ := h.between (mem_zero hf) hnat l0 lle
  have b4 : |l - Real.log s'| ≤ (n - 1) * u := by
    rcases Nat.eq_or_lt_of_le (show 1 ≤ n by omega) with h1 | h1
    · have e1 : (n : ℝ) = 1 := by exact_mod_cast h1.symm
      have : Real.log s' = 0 := by linarith
      have : l = 0 := by linarith
      rw [e1, this, ‹Real.log s' = 0›]; simp
    · obtain ⟨l', el', -, -, dl⟩ := Nearest.err_nonneg hw h l0 (lle.trans (by linarith))
      rw [el] at el'
      injection el' with e
      subst e
      refine dl.trans ?_
      rw [hu, mul_one_div]
      have : (2 : ℝ) ≤ n := by exact_mod_cast h1
      gcongr
      exact max_le lle (by linarith)
  -- the final addition
  have hab : |l + M| ≤ |M| + (n - 1) := by
    refine (abs_add_le l M).trans ?_
    rw [abs_of_nonneg la]; linarith
  obtain ⟨r, er, mr, dr⟩ := Nearest.err_add hf h ml hMm (hab.trans (by linarith))
  refine ⟨r, ?_, mr, ?_, ?_⟩
  · rw [logsumexp_largest R hx hM]
    have e : sum fl R ((l1 ++ fin M :: l2).map (term fl M)) = fin s' := es
    rw [e, log_fin_pos hs0, rd_fin, el, add_def, er]
  · have : |r| ≤ |r - (l + M)| + |l + M| := by
      have := abs_add_le (r - (l + M)) (l + M); simpa using this
    have h3 : |l + M| / 2 ^ f.p ≤ |l + M| := div_le_self (abs_nonneg _) (by linarith)
    linarith
  · rw [eL]
    have e1 : r - (Real.log T + M) = (r - (l + M)) + (l - Real.log s') + (Real.log s' - Real.log V) + (Real.log V - Real.log T) := by ring
    rw [e1]
    have t1 := abs_add_le ((r - (l + M)) + (l - Real.log s') + (Real.log s' - Real.log V)) (Real.log V - Real.log T)
    have t2 := abs_add_three (r - (l + M)) (l - Real.log s') (Real.log s' - Real.log V)
    have t3 : |l + M| / 2 ^ f.p ≤ (|M| + (n - 1)) * u := by
      rw [hu, mul_one_div]; gcongr
    have e2 : (5 * ((n : ℝ) - 1) + |M|) / 2 ^ f.p = 5 * ((n - 1) * u) + |M| * u := by rw [hu]; ring
    rw [e2]
    have : (|M| + ((n : ℝ) - 1)) * u = |M| * u + (n - 1) * u := by ring
    linarith

/-! ## The posterior as one sum -/

/-- Two trees joined from the left, one bucket after the other. -/
theorem total_tree {θ} (R : Reduction) (M : Likelihood.Model θ) (bs : List (Likelihood.Bucket θ)) (t : Tree) :
    ∃ t' : Tree, bs.foldl (fun acc b => Rounding.add fl acc (bucketSum fl R M b)) (t.sum fl) = t'.sum fl ∧
      ∃ k, t'.leaves.Perm (t.leaves ++ (bs.map (weights fl M)).flatten.map (logsumexp fl R) ++ List.replicate k (fin 0)) := by
  induction bs generalizing t with
  | nil => exact ⟨t, rfl, 0, by simp⟩
  | cons b bs ih =>
    obtain ⟨t', e, k, hk⟩ := ih (.node t (R.tree ((weights fl M b).map (logsumexp fl R))))
    obtain ⟨j, hj⟩ := R.uses ((weights fl M b).map (logsumexp fl R))
    refine ⟨t', e, j + k, hk.trans ?_⟩
    simp only [Tree.leaves, List.map_cons, List.flatten_cons, List.map_append]
    refine (((hj.append_left t.leaves).append_right _).append_right _).trans ?_
    rw [List.replicate_add]
    simp only [List.append_assoc]
    refine (List.Perm.refl _).append ((List.Perm.refl _).append ?_)
    rw [← List.append_assoc, ← List.append_assoc]
    exact List.perm_append_comm.append_right _

theorem sub_eq_add (a : XR) (b : ℝ) : Rounding.sub fl a (fin b) = Rounding.add fl a (fin (-b)) := rfl

/-- Sums of the events. -/
theorem rows_close (hw : Wide f) (h : Nearest f fl) (R : Reduction) (rows : List (List XR)) (top : List XR → ℝ)
    (hrow : ∀ w ∈ rows, (∀ x ∈ w, Weight f x) ∧ Largest w (top w) ∧ (8 : ℝ) * finites w ≤ 2 ^ f.p ∧ |top w| + finites w ≤ (2 : ℝ) ^ f.emax) :
    AllMem f (rows.map (logsumexp fl R)) ∧
    |vals (rows.map (logsumexp fl R)) - (rows.map exactLog).sum| ≤ (rows.map fun w => 5 * ((finites w : ℝ) - 1) + |top w|).sum / 2 ^ f.p ∧
    mags (rows.map (logsumexp fl R)) ≤ 2 * (rows.map fun w => |top w| + (finites w : ℝ)).sum := by
  induction rows with
  | nil => simp [AllMem, vals, mags]
  | cons w ws ih =>
    obtain ⟨i1, i2, i3⟩ := ih fun v hv => hrow v (by simp [hv])
    obtain ⟨a1, a2, a3, a4⟩ := hrow w (by simp)
    obtain ⟨r, er, mr, br, dr⟩ := logsumexp_accurate hw h R a1 a2 a3 a4
    refine ⟨?_, ?_, ?_⟩
    · intro x hx
      rcases List.mem_cons.1 hx with hx | hx
      · exact ⟨r, by rw [hx, er], mr⟩
      · exact i1 x hx
    · simp only [List.map_cons, List.sum_cons, vals, er, val] at i2 ⊢
      have e : ∀ a b c d : ℝ, a + b - (c + d) = (a - c) + (b - d) := by intros; ring
      rw [e, add_div]
      exact (abs_add_le _ _).trans (add_le_add dr i2)
    · simp only [List.map_cons, List.sum_cons, mags, er, val] at i3 ⊢
      linarith

/-- The terms of the events and finitely many other floats, added up in any order. -/
theorem sum_close (hw : Wide f) (h : Nearest f fl) (R : Reduction) (rows : List (List XR)) (top : List XR → ℝ) (T : Tree) (cs : List ℝ) (k : ℕ)
    (hleaves : T.leaves.Perm (cs.map fin ++ rows.map (logsumexp fl R) ++ List.replicate k (fin 0))) (hcs : ∀ c ∈ cs, f.Mem c)
    (hrow : ∀ w ∈ rows, (∀ y ∈ w, Weight f y) ∧ Largest w (top w) ∧ (8 : ℝ) * finites w ≤ 2 ^ f.p)
    (hJ : (8 : ℝ) * (rows.length + cs.length) ≤ 2 ^ f.p)
    (A : ℝ) (hA : A = (cs.map fun c => |c|).sum + (rows.map fun w => |top w| + (finites w : ℝ)).sum) (hA2 : 4 * A ≤ (2 : ℝ) ^ f.emax) :
    ∃ v, T.sum fl = fin v ∧ |v - (cs.sum + (rows.map exactLog).sum)| ≤
        ((rows.map fun w => 5 * ((finites w : ℝ) - 1) + |top w|).sum + 9 / 4 * (rows.length + cs.length - 1) * A) / 2 ^ f.p := by
  have hf := hw.1
  have hpp : (0 : ℝ) < 2 ^ f.p := by positivity
  set u : ℝ := 1 / 2 ^ f.p with hu
  have hu0 : 0 < u := by positivity
  have hsum0 : 0 ≤ (rows.map fun w => |top w| + (finites w : ℝ)).sum := List.sum_nonneg (by
    intro y hy
    obtain ⟨w, -, rfl⟩ := List.mem_map.1 hy
    positivity)
  have hcs0 : 0 ≤ (cs.map fun c => |c|).sum := List.sum_nonneg (by
    intro y hy
    obtain ⟨w, -, rfl⟩ := List.mem_map.1 hy
    positivity)
  have hA0 : 0 ≤ A := by rw [hA]; linarith
  have hone : ∀ w ∈ rows, |top w| + (finites w : ℝ) ≤ A := by
    intro w hw'
    have : |top w| + (finites w : ℝ) ≤ (rows.map fun w => |top w| + (finites w : ℝ)).sum :=
      List.single_le_sum (by
        intro y hy
        obtain ⟨w, -, rfl⟩ := List.mem_map.1 hy
        positivity) _ (List.mem_map.2 ⟨w, hw', rfl⟩)
    linarith
  obtain ⟨r1, r2, r3⟩ := rows_close hw h R rows top (fun w hw' => by
    obtain ⟨a1, a2, a3⟩ := hrow w hw'
    exact ⟨a1, a2, a3, by linarith [hone w hw']⟩)
  have ec : vals (cs.map fin) = cs.sum := by
    rw [vals, List.map_map]; congr 1; exact List.map_id'' (fun _ => rfl) cs
  have hv : vals T.leaves = cs.sum + vals (rows.map (logsumexp fl R)) := by
    rw [vals_perm hleaves, vals_append, vals_append, vals_zeros, ec, add_zero]
  have hmag : mags T.leaves ≤ 2 * A := by
    rw [mags_perm hleaves, mags_append, mags_append, mags_zeros]
    have : mags (cs.map fin) = (cs.map fun c => |c|).sum := by rw [mags, List.map_map]; rfl
    rw [this, hA]
    linarith
  have hnz : nz T.leaves ≤ rows.length + cs.length := by
    rw [nz_perm hleaves, nz_append, nz_append, nz_zeros]
    have a1 : nz (cs.map fin) ≤ cs.length := (List.length_filter_le _ _).trans (by simp)
    have a2 : nz (rows.map (logsumexp fl R)) ≤ rows.length := (List.length_filter_le _ _).trans (by simp)
    omega
  have hmem : AllMem f T.leaves := by
    intro y hy
    have := hleaves.subset hy
    simp only [List.append_assoc, List.mem_append] at this
    rcases this with h1 | h1 | h1
    · obtain ⟨c, hc, rfl⟩ := List.mem_map.1 h1
      exact ⟨c, rfl, hcs c hc⟩
    · exact r1 y h1
    · exact ⟨0, List.eq_of_mem_replicate h1, mem_zero hf⟩
  have hJu : ((rows.length + cs.length : ℕ) : ℝ) * u ≤ 1 / 8 := by
    rw [hu, mul_one_div, div_le_iff₀ hpp]; push_cast; linarith
  have gro : ∀ m : ℕ, m ≤ rows.length + cs.length → (1 + u) ^ m - 1 ≤ 9 / 8 * (m * u) := fun m hm' =>
    growth hu0.le m (le_trans (mul_le_mul_of_nonneg_right (by exact_mod_cast hm') hu0.le) hJu)
  have hmag0 := mags_nonneg T.leaves
  obtain ⟨v, ev, -, dv, dz⟩ := tree_sum hf h T hmem (by
    have h1 := gro _ hnz
    have h2 : (nz T.leaves : ℝ) * u ≤ 1 / 8 := le_trans (mul_le_mul_of_nonneg_right (by exact_mod_cast hnz) hu0.le) hJu
    have h3 : (1 + u) ^ nz T.leaves ≤ 2 := by linarith
    have : (1 + u) ^ nz T.leaves * mags T.leaves ≤ 2 * (2 * A) := mul_le_mul h3 hmag hmag0 (by norm_num)
    linarith)
  refine ⟨v, ev, ?_⟩
  rw [hv] at dv
  have g2 : ((1 + u) ^ (nz T.leaves - 1) - 1) * mags T.leaves ≤ 9 / 4 * (rows.length + cs.length - 1) * A / 2 ^ f.p := by
    rcases Nat.eq_zero_or_pos (rows.length + cs.length) with h0 | h0
    · have e1 : rows = [] := List.length_eq_zero_iff.1 (by omega)
      have e2 : cs = [] := List.length_eq_zero_iff.1 (by omega)
      have e3 : A = 0 := by rw [hA, e1, e2]; simp
      have : nz T.leaves - 1 = 0 := by omega
      rw [this, e3]; simp
    have g1 : (1 + u) ^ (nz T.leaves - 1) - 1 ≤ 9 / 8 * ((rows.length + cs.length - 1) * u) := by
      refine (gro (nz T.leaves - 1) (by omega)).trans ?_
      have : ((nz T.leaves - 1 : ℕ) : ℝ) ≤ rows.length + cs.length - 1 := by
        have h1 : nz T.leaves - 1 + 1 ≤ rows.length + cs.length := by omega
        have h2 : ((nz T.leaves - 1 : ℕ) : ℝ) + 1 ≤ rows.length + cs.length := by exact_mod_cast h1
        linarith
      gcongr
    have hpos : (0 : ℝ) ≤ rows.length + cs.length - 1 := by
      have : (1 : ℝ) ≤ rows.length + cs.length := by exact_mod_cast h0
      linarith
    refine (mul_le_mul g1 hmag hmag0 (by positivity)).trans (le_of_eq ?_)
    rw [hu]; ring
  have e1 : v - (cs.sum + (rows.map exactLog).sum) =
      (v - (cs.sum + vals (rows.map (logsumexp fl R)))) + (vals (rows.map (logsumexp fl R)) - (rows.map exactLog).sum) := by ring
  rw [e1, add_div]
  refine (abs_add_le _ _).trans ?_
  linarith

/-- A list with finite entries has a largest one. -/
theorem exists_largest (xs : List XR) (hne : xs ≠ []) (h : ∀ x ∈ xs, ∃ a, x = fin a) : ∃ M, Largest xs M := by
  induction xs with
  | nil => exact absurd rfl hne
  | cons x xs ih =>
    obtain ⟨a, rfl⟩ := h x (by simp)
    by_cases hx : xs = []
    · subst hx
      exact ⟨a, by simp, by intro y hy; rw [List.mem_singleton.1 hy]; exact le_refl a⟩
    · obtain ⟨M, h1, h2⟩ := ih hx fun y hy => h y (by simp [hy])
      rcases le_total a M with hm | hm
      · refine ⟨M, by simp [h1], ?_⟩
        intro y hy
        rcases List.mem_cons.1 hy with rfl | hy
        · exact hm
        · exact h2 y hy
      · refine ⟨a, by simp, ?_⟩
        intro y hy
        rcases List.mem_cons.1 hy with rfl | hy
        · exact le_refl a
        · obtain ⟨b, rfl⟩ := h y (by simp [hy])
          exact le_trans (show b ≤ M from h2 _ hy) hm

/-- The injections that are kept. -/
theorem kept_finite (ws : List XR) (h : ∀ x ∈ ws, x = nan ∨ Weight f x) :
    ((ws.map fun x => if x.isNegInf || x.isNan then ninf else x).filter fun x => !x.isNegInf) = ws.filter XR.isFinite := by
  induction ws with
  | nil => rfl
  | cons y ys ih =>
    have ih := ih fun z hz => h z (by simp [hz])
    rcases h y (by simp) with rfl | rfl | ⟨a, rfl, -⟩
    · simpa using ih
    · simpa using ih
    · have e : (((fin a :: ys).map fun x => if x.isNegInf || x.isNan then ninf else x).filter fun x => !x.isNegInf) =
          fin a :: ((ys.map fun x => if x.isNegInf || x.isNan then ninf else x).filter fun x => !x.isNegInf) := rfl
      rw [e, ih]
      rfl

theorem finites_filter (ws : List XR) : finites (ws.filter XR.isFinite) = finites ws := by simp [finites]

/-- One rounded operation in the range of full precision. -/
theorem step_close (hp : 2 ≤ f.p) (h : Nearest f fl) {X x a b : ℝ} (hX : 0 < X) (ha : 1 / 2 ≤ a) (hb : b ≤ 2) (h1 : a * X ≤ x) (h2 : x ≤ b * X)
    (l1 : (2 : ℝ) ^ (f.emin + f.p) ≤ X) (l2 : X ≤ (2 : ℝ) ^ (f.emax - 1)) :
    ∃ y, fl x = fin y ∧ a * (1 - 1 / 2 ^ f.p) * X ≤ y ∧ y ≤ b * (1 + 1 / 2 ^ f.p) * X := by
  have e1 : (2 : ℝ) ^ (f.emin + f.p) = 2 ^ (f.emin + f.p - 1) * 2 := by rw [← zpow_add_one₀ (by norm_num)]; congr 1; ring
  have e2 : (2 : ℝ) ^ f.emax = 2 ^ (f.emax - 1) * 2 := by rw [← zpow_add_one₀ (by norm_num)]; congr 1; ring
  have a1 : 1 / 2 * X ≤ a * X := mul_le_mul_of_nonneg_right ha hX.le
  have b1 : b * X ≤ 2 * X := mul_le_mul_of_nonneg_right hb hX.le
  obtain ⟨y, hy, -, hd⟩ := h.rel hp (x := x) (by linarith) (by linarith)
  have hpp : (1 : ℝ) ≤ 2 ^ f.p := one_le_pow₀ (by norm_num)
  have hu : x / 2 ^ f.p = x * (1 / 2 ^ f.p) := by ring
  have hu1 : (1 : ℝ) / 2 ^ f.p ≤ 1 := by rw [div_le_one (by linarith)]; exact hpp
  have hu0 : (0 : ℝ) < 1 / 2 ^ f.p := by positivity
  obtain ⟨d1, d2⟩ := abs_le.1 hd
  refine ⟨y, hy, ?_, ?_⟩
  · have : a * X * (1 - 1 / 2 ^ f.p) ≤ x * (1 - 1 / 2 ^ f.p) := mul_le_mul_of_nonneg_right h1 (by linarith)
    linarith
  · have : x * (1 + 1 / 2 ^ f.p) ≤ b * X * (1 + 1 / 2 ^ f.p) := mul_le_mul_of_nonneg_right h2 (by linarith)
    linarith

/-- Three rounded operations. -/
theorem factors {δ u : ℝ} (d0 : 0 ≤ δ) (d8 : δ ≤ 1 / 8) (u0 : 0 ≤ u) (u8 : u ≤ 1 / 8) :
    1 / 2 ≤ (1 - δ) * (1 - u) * (1 - u) ∧ (1 + 9 / 8 * δ) * (1 + u) * (1 + u) ≤ 2 ∧
    (1 + 9 / 8 * δ) * (1 + u) * (1 + u) * (1 + u) ≤ 1 + (2 * δ + 4 * u) ∧ 1 - (2 * δ + 4 * u) ≤ (1 - δ) * (1 - u) * (1 - u) * (1 - u) := by
  have uu : u * u ≤ 1 / 8 * u := mul_le_mul_of_nonneg_right u8 u0
  have uu0 : 0 ≤ u * u := mul_nonneg u0 u0
  have uuu : u * (u * u) ≤ 1 / 8 * (u * u) := mul_le_mul_of_nonneg_right u8 uu0
  have uuu0 : 0 ≤ u * (u * u) := mul_nonneg u0 uu0
  have e3 : (1 + u) * (1 + u) * (1 + u) = 1 + 3 * u + 3 * (u * u) + u * (u * u) := by ring
  have f3 : (1 - u) * (1 - u) * (1 - u) = 1 - 3 * u + 3 * (u * u) - u * (u * u) := by ring
  have h3 : (1 + u) * (1 + u) * (1 + u) ≤ 1 + 137 / 40 * u := by rw [e3]; linarith
  have l3 : 1 - 3 * u ≤ (1 - u) * (1 - u) * (1 - u) := by rw [f3]; linarith
  refine ⟨?_, ?_, ?_, ?_⟩
  · have a1 : (7 / 8 : ℝ) * (7 / 8) ≤ (1 - δ) * (1 - u) := mul_le_mul (by linarith) (by linarith) (by norm_num) (by linarith)
    have a2 : (7 / 8 : ℝ) * (7 / 8) * (7 / 8) ≤ (1 - δ) * (1 - u) * (1 - u) := mul_le_mul a1 (by linarith) (by norm_num) (by linarith)
    linarith
  · have a1 : (1 + 9 / 8 * δ) * (1 + u) ≤ 73 / 64 * (9 / 8) := mul_le_mul (by linarith) (by linarith) (by linarith) (by norm_num)
    have a2 : (1 + 9 / 8 * δ) * (1 + u) * (1 + u) ≤ 73 / 64 * (9 / 8) * (9 / 8) := mul_le_mul a1 (by linarith) (by linarith) (by norm_num)
    linarith
  · have a1 : (1 + 9 / 8 * δ) * ((1 + u) * (1 + u) * (1 + u)) ≤ (1 + 9 / 8 * δ) * (1 + 137 / 40 * u) := mul_le_mul_of_nonneg_left h3 (by linarith)
    have a2 : δ * u ≤ 1 / 8 * u := mul_le_mul_of_nonneg_right d8 u0
    have e : (1 + 9 / 8 * δ) * (1 + 137 / 40 * u) = 1 + 9 / 8 * δ + 137 / 40 * u + 1233 / 320 * (δ * u) := by ring
    have e' : (1 + 9 / 8 * δ) * (1 + u) * (1 + u) * (1 + u) = (1 + 9 / 8 * δ) * ((1 + u) * (1 + u) * (1 + u)) := by ring
    rw [e']
    linarith
  · have a1 : (1 - δ) * (1 - 3 * u) ≤ (1 - δ) * ((1 - u) * (1 - u) * (1 - u)) := mul_le_mul_of_nonneg_left l3 (by linarith)
    have a2 : 0 ≤ δ * u := mul_nonneg d0 u0
    have e : (1 - δ) * (1 - 3 * u) = 1 - δ - 3 * u + 3 * (δ * u) := by ring
    have e' : (1 - δ) * (1 - u) * (1 - u) * (1 - u) = (1 - δ) * ((1 - u) * (1 - u) * (1 - u)) := by ring
    rw [e']
    linarith

/-! ## The components of a mixture -/

/-- The rounded sums of log scale and log density, component by component. -/
theorem parts_close (hf : f.Usable) (h : Nearest f fl) {B : ℝ} (hB : B ≤ (2 : ℝ) ^ f.emax) (cs : List (ℝ × XR))
    (hc : ∀ c ∈ cs, f.Mem c.1 ∧ Weight f c.2 ∧ ∀ a, c.2 = fin a → |c.1 + a| ≤ B) :
    (∀ x ∈ cs.map fun c => Rounding.add fl (fin c.1) c.2, Weight f x ∧ ∀ a, x = fin a → |a| ≤ B + B / 2 ^ f.p) ∧
    finites (cs.map fun c => Rounding.add fl (fin c.1) c.2) = finites (cs.map (·.2)) ∧
    Real.exp (-(B / 2 ^ f.p)) * (cs.map fun c => Real.exp c.1 * expR c.2).sum ≤ ((cs.map fun c => Rounding.add fl (fin c.1) c.2).map expR).sum ∧
    ((cs.map fun c => Rounding.add fl (fin c.1) c.2).map expR).sum ≤ Real.exp (B / 2 ^ f.p) * (cs.map fun c => Real.exp c.1 * expR c.2).sum := by
  induction cs with
  | nil => simp [finites]
  | cons c cs ih =>
    obtain ⟨i1, i2, i3, i4⟩ := ih fun c hc' => hc c (by simp [hc'])
    obtain ⟨c1, c2, c3⟩ := hc c (by simp)
    simp only [List.map_cons, List.sum_cons, List.mem_cons, forall_eq_or_imp]
    rw [finites_cons, finites_cons c.2, i2]
    rcases c2 with e | ⟨a, e, ha⟩
    · have e' : Rounding.add fl (fin c.1) c.2 = ninf := by rw [e]; rfl
      rw [e', e]
      refine ⟨⟨⟨Or.inl rfl, fun a h => by cases h⟩, i1⟩, rfl, ?_, ?_⟩
      · simpa using i3
      · simpa using i4
    · have hab := c3 a e
      obtain ⟨y, hy, hm, he⟩ := Nearest.err_add hf h c1 ha (hab.trans hB)
      have e' : Rounding.add fl (fin c.1) c.2 = fin y := by rw [e, add_def, hy]
      have hpp : (0 : ℝ) < 2 ^ f.p := by positivity
      have he' : |y - (c.1 + a)| ≤ B / 2 ^ f.p := he.trans (by gcongr)
      rw [e', e]
      refine ⟨⟨⟨Or.inr ⟨y, rfl, hm⟩, fun b hb => ?_⟩, i1⟩, rfl, ?_, ?_⟩
      · cases hb
        have : y = (c.1 + a) + (y - (c.1 + a)) := by ring
        rw [this]
        exact (abs_add_le _ _).trans (add_le_add hab he')
      · obtain ⟨l1, -⟩ := abs_le.1 he'
        rw [mul_add, expR_fin, expR_fin, ← Real.exp_add, ← Real.exp_add]
        refine add_le_add (Real.exp_le_exp.2 (by linarith)) i3
      · obtain ⟨-, l1⟩ := abs_le.1 he'
        rw [mul_add, expR_fin, expR_fin, ← Real.exp_add, ← Real.exp_add]
        refine add_le_add (Real.exp_le_exp.2 (by linarith)) i4

theorem expR_kept (ws : List XR) : ((ws.filter fun x => !x.isNegInf).map expR).sum = (ws.map expR).sum := by
  induction ws with
  | nil => rfl
  | cons x xs ih => cases x <;> simp [ih]

theorem finites_kept (ws : List XR) : finites (ws.filter fun x => !x.isNegInf) = finites ws := by
  rw [finites, finites, List.filter_filter]
  congr 1
  apply List.filter_congr
  intro x _
  cases x <;> simp

theorem log_squeeze {S S' e : ℝ} (hS : 0 < S) (h1 : Real.exp (-e) * S ≤ S') (h2 : S' ≤ Real.exp e * S) : |Real.log S' - Real.log S| ≤ e := by
  have p1 : 0 < Real.exp (-e) * S := by positivity
  have hS' : 0 < S' := p1.trans_le h1
  have a1 := Real.log_le_log p1 h1
  have a2 := Real.log_le_log hS' h2
  rw [Real.log_mul (Real.exp_pos _).ne' hS.ne', Real.log_exp] at a1 a2
  rw [abs_le]
  constructor <;> linarith

end GW.RoundedLikelihood
