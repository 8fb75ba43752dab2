import Verif.Lemmas.Numeric

/-! Piecewise linear interpolation between strictly increasing tables: single valued, strictly monotone, inverted by swapping the tables. -/

namespace GW.Num
open GW XR
open scoped Classical

/-- `(x, y)` lies on the polygon through the points `(xs[i], ys[i])`. -/
def OnPolygon (n : ℕ) (xs ys : ℕ → ℝ) (x y : ℝ) : Prop :=
  ∃ i, i + 1 < n ∧ xs i ≤ x ∧ x ≤ xs (i + 1) ∧ y = ys i + (x - xs i) / (xs (i + 1) - xs i) * (ys (i + 1) - ys i)

variable {n : ℕ} {xs ys : ℕ → ℝ}

theorem OnPolygon.ends {x y : ℝ} {i : ℕ} (hx : xs i < xs (i + 1)) (hy : ys i < ys (i + 1)) (h0 : xs i ≤ x) (h1 : x ≤ xs (i + 1)) (e : y = ys i + (x - xs i) / (xs (i + 1) - xs i) * (ys (i + 1) - ys i)) :
    ys i ≤ y ∧ y ≤ ys (i + 1) ∧ (y = ys i → x = xs i) ∧ (y = ys (i + 1) → x = xs (i + 1)) ∧ x = xs i + (y - ys i) / (ys (i + 1) - ys i) * (xs (i + 1) - xs i) := by
  have dx : 0 < xs (i + 1) - xs i := by linarith
  have dy : 0 < ys (i + 1) - ys i := by linarith
  have ex : x = xs i + (y - ys i) / (ys (i + 1) - ys i) * (xs (i + 1) - xs i) := by
    rw [e]
    field_simp
    ring
  have t0 : 0 ≤ (x - xs i) / (xs (i + 1) - xs i) := div_nonneg (by linarith) dx.le
  have t1 : (x - xs i) / (xs (i + 1) - xs i) ≤ 1 := by
    rw [div_le_one dx]
    linarith
  refine ⟨by nlinarith, by nlinarith, ?_, ?_, ex⟩
  · intro h
    rw [ex, h]
    simp
  · intro h
    rw [ex, h, div_self dy.ne']
    ring

theorem mono_of_succ {f : ℕ → ℝ} (h : ∀ i, i + 1 < n → f i < f (i + 1)) {i j : ℕ} (hij : i < j) (hj : j < n) : f i < f j := by
  induction j with
  | zero => omega
  | succ j ih =>
    rcases Nat.lt_succ_iff_lt_or_eq.1 hij with k | k
    · exact (ih k (by omega)).trans (h j hj)
    · rw [k]
      exact h j hj

theorem OnPolygon.swap (hx : ∀ i, i + 1 < n → xs i < xs (i + 1)) (hy : ∀ i, i + 1 < n → ys i < ys (i + 1)) {x y : ℝ} (h : OnPolygon n xs ys x y) : OnPolygon n ys xs y x := by
  obtain ⟨i, hi, h0, h1, e⟩ := h
  obtain ⟨a, b, -, -, c⟩ := OnPolygon.ends (hx i hi) (hy i hi) h0 h1 e
  exact ⟨i, hi, a, b, c⟩

theorem OnPolygon.unique (hx : ∀ i, i + 1 < n → xs i < xs (i + 1)) {x y y' : ℝ} (h : OnPolygon n xs ys x y) (h' : OnPolygon n xs ys x y') : y = y' := by
  have key : ∀ {y y'} {i j : ℕ}, i < j → j + 1 < n → i + 1 < n → x ≤ xs (i + 1) → xs j ≤ x → y = ys i + (x - xs i) / (xs (i + 1) - xs i) * (ys (i + 1) - ys i) →
      y' = ys j + (x - xs j) / (xs (j + 1) - xs j) * (ys (j + 1) - ys j) → y = y' := by
    intro y y' i j hij hj hi a b e e'
    have hle : i + 1 = j := by
      by_contra hne
      have := mono_of_succ hx (i := i + 1) (j := j) (by omega) (by omega)
      linarith
    subst hle
    have ex : x = xs (i + 1) := le_antisymm a b
    have dx : xs (i + 1) - xs i ≠ 0 := by linarith [hx i hi]
    rw [e, e', ex, div_self dx]
    ring
  obtain ⟨i, hi, h0, h1, e⟩ := h
  obtain ⟨j, hj, k0, k1, e'⟩ := h'
  rcases lt_trichotomy i j with c | c | c
  · exact key c hj hi h1 k0 e e'
  · subst c
    rw [e, e']
  · exact (key c hi hj k1 h0 e' e).symm

theorem OnPolygon.strictMono (hx : ∀ i, i + 1 < n → xs i < xs (i + 1)) (hy : ∀ i, i + 1 < n → ys i < ys (i + 1)) {x x' y y' : ℝ} (h : OnPolygon n xs ys x y) (h' : OnPolygon n xs ys x' y') (hlt : x < x') :
    y < y' := by
  obtain ⟨i, hi, h0, h1, e⟩ := h
  obtain ⟨j, hj, k0, k1, e'⟩ := h'
  obtain ⟨a0, a1, -, a3, -⟩ := OnPolygon.ends (hx i hi) (hy i hi) h0 h1 e
  obtain ⟨b0, b1, b2, -, -⟩ := OnPolygon.ends (hx j hj) (hy j hj) k0 k1 e'
  rcases lt_trichotomy i j with c | c | c
  · rcases (Nat.succ_le_of_lt c).eq_or_lt with k | k
    · have k : i + 1 = j := k
      subst k
      rcases a1.eq_or_lt with q | q
      · rcases b0.eq_or_lt with r | r
        · have := a3 q
          have := b2 r.symm
          linarith
        · linarith
      · linarith
    · have := mono_of_succ hy (i := i + 1) (j := j) k (by omega)
      linarith
  · subst c
    rw [e, e']
    have dx : 0 < xs (i + 1) - xs i := by linarith [hx i hi]
    have dy : 0 < ys (i + 1) - ys i := by linarith [hy i hi]
    have : (x - xs i) / (xs (i + 1) - xs i) < (x' - xs i) / (xs (i + 1) - xs i) := div_lt_div_of_pos_right (by linarith) dx
    nlinarith
  · have : xs (j + 1) ≤ xs i := by
      rcases (Nat.succ_le_of_lt c).eq_or_lt with k | k
      · rw [← k]
      · exact (mono_of_succ hx (i := j + 1) (j := i) k (by omega)).le
    linarith

/-- `jnp.interp` of two tables with strictly increasing abscissae, on the range of the grid. -/
theorem interp_onPolygon (hn : 2 ≤ n) (hx : ∀ i, i + 1 < n → xs i < xs (i + 1)) {x : ℝ} (h0 : xs 0 ≤ x) (h1 : x ≤ xs (n - 1)) (l r : XR) :
    ∃ y, OnPolygon n xs ys x y ∧ interp (fin x) ((List.range n).map fun i => fin (xs i)) ((List.range n).map fun i => fin (ys i)) l r = fin y := by
  have e1 : ((List.range n).map fun i => fin (xs i)) = ((List.range n).map xs).map fin := by simp [List.map_map, Function.comp_def]
  have e2 : ((List.range n).map fun i => fin (ys i)) = ((List.range n).map ys).map fin := by simp [List.map_map, Function.comp_def]
  have hp : ((List.range n).map xs).Pairwise (· < ·) := by
    rw [List.pairwise_iff_getElem]
    intro i j hi hj hij
    simp only [List.getElem_map, List.getElem_range]
    exact mono_of_succ hx hij (by simpa using hj)
  obtain ⟨i, h, a, b, -, e⟩ := interp_cell hp (ys := (List.range n).map ys) (by simp) (by simpa using hn) (x := x) (by simpa using h0) (by simpa using h1) l r
  rw [e1, e2, e]
  simp only [List.getElem_map, List.getElem_range, List.length_map, List.length_range] at a b h ⊢
  exact ⟨_, ⟨i, h, a, b, rfl⟩, rfl⟩

theorem getD_range_map {f : ℕ → XR} {i : ℕ} (h : i < n) : ((List.range n).map f).getD i nan = f i := by
  simp [List.getD_eq_getElem?_getD, h]

/-- Above the grid the right value, below the left value. -/
theorem interp_above {fp : List XR} {x : ℝ} (hn : 1 ≤ n) (h : xs (n - 1) < x) (l r : XR) : interp (fin x) ((List.range n).map fun i => fin (xs i)) fp l r = r := by
  have e : decide (lt (((List.range n).map fun i => fin (xs i)).getD (n - 1) nan) (fin x)) = true := by
    rw [getD_range_map (by omega)]
    simpa using h
  simp only [interp, List.length_map, List.length_range, e, select_true]

theorem interp_below {fp : List XR} {x : ℝ} (hn : 1 ≤ n) (h : x < xs 0) (h' : xs 0 ≤ xs (n - 1)) (l r : XR) : interp (fin x) ((List.range n).map fun i => fin (xs i)) fp l r = l := by
  have e : decide (lt (((List.range n).map fun i => fin (xs i)).getD (n - 1) nan) (fin x)) = false := by
    rw [getD_range_map (by omega)]
    simp only [lt_fin_fin, decide_eq_false_iff_not, not_lt]
    linarith
  have e' : decide (lt (fin x) (((List.range n).map fun i => fin (xs i)).getD 0 nan)) = true := by
    rw [getD_range_map (by omega)]
    simpa using h
  simp only [interp, List.length_map, List.length_range, e, e', select_true, select_false]

end GW.Num
