import Verif.Model.ModelFile
import Verif.Lemmas.PyDict
import Verif.Lemmas.Names
import Mathlib.Data.List.Nodup
import Mathlib.Data.List.Perm.Subperm
import Mathlib.Data.List.Perm.Basic

/-!
# C53: saving and loading networks
-/

namespace GW.ModelFile
open PyDict (Dict)

theorem layerName_inj {a b : Nat} (h : layerName a = layerName b) : a = b := numbered_inj h

theorem weight_ne_bias (i : Nat) : ("weight_" ++ toString i : String) ≠ "bias_" ++ toString i := by
  intro h
  have := congrArg String.toList h
  simp at this

/-- What the saved groups contain. -/
theorem saveLayers_spec {W : Type} : ∀ (ls : List (W × W)) (i : Nat) (g : Dict String (Dict String W)) (j : Nat),
    PyDict.get? (saveLayers i ls g) (layerName j) =
      if h : i ≤ j ∧ j - i < ls.length then
        some (PyDict.set (PyDict.set [] ("weight_" ++ toString j) (ls[j - i]).1) ("bias_" ++ toString j) (ls[j - i]).2)
      else PyDict.get? g (layerName j)
  | [], i, g, j => by simp [saveLayers]
  | (w, b) :: rest, i, g, j => by
    simp only [saveLayers]
    rw [saveLayers_spec rest (i + 1)]
    by_cases hj : j = i
    · subst hj
      simp [PyDict.get?_set_self]
      intro h
      omega
    · have hne : layerName j ≠ layerName i := fun e => hj (layerName_inj e)
      by_cases h : i + 1 ≤ j ∧ j - (i + 1) < rest.length
      · have h' : i ≤ j ∧ j - i < ((w, b) :: rest).length := by
          simp only [List.length_cons]; omega
        rw [dif_pos h, dif_pos h']
        have : ((w, b) :: rest)[j - i]'h'.2 = rest[j - (i + 1)]'h.2 := by
          have e : j - i = (j - (i + 1)) + 1 := by omega
          simp only [e, List.getElem_cons_succ]
        rw [this]
      · rw [dif_neg h, PyDict.get?_set_ne _ _ hne]
        by_cases h' : i ≤ j ∧ j - i < ((w, b) :: rest).length
        · exfalso; apply h
          simp only [List.length_cons] at h'
          omega
        · rw [dif_neg h']

theorem saveLayers_length {W : Type} : ∀ (ls : List (W × W)) (i : Nat) (g : Dict String (Dict String W)),
    (∀ j, i ≤ j → layerName j ∉ PyDict.keys g) → (saveLayers i ls g).length = g.length + ls.length
  | [], i, g, _ => by simp [saveLayers]
  | (w, b) :: rest, i, g, h => by
    simp only [saveLayers]
    rw [saveLayers_length rest (i + 1)]
    · have hk := PyDict.keys_set g (layerName i)
        (PyDict.set (PyDict.set [] ("weight_" ++ toString i) w) ("bias_" ++ toString i) b)
      rw [if_neg (h i (Nat.le_refl _))] at hk
      have := congrArg List.length hk
      simp only [PyDict.keys, List.length_map, List.length_append, List.length_singleton] at this
      rw [this, List.length_cons]; omega
    · intro j hj hmem
      rw [PyDict.mem_keys_set] at hmem
      rcases hmem with e | hmem
      · have := layerName_inj e; omega
      · exact h j (by omega) hmem

theorem loadLayers_saved {W : Type} (ls : List (W × W)) : ∀ (fuel i : Nat) (layers : List (W × W)),
    layers.length = ls.length → i ≤ ls.length → ls.length - i < fuel →
    loadLayers (saveLayers 0 ls []) fuel i layers = .ok (layers.take i ++ ls.drop i)
  | 0, i, layers, _, _, h => by omega
  | fuel + 1, i, layers, hl, hi, hf => by
    unfold loadLayers
    rw [saveLayers_spec]
    by_cases h : 0 ≤ i ∧ i - 0 < ls.length
    · rw [dif_pos h]
      have hi' : i < ls.length := by omega
      simp only
      rw [PyDict.get?_set_ne _ _ (weight_ne_bias i), PyDict.get?_set_self, PyDict.get?_set_self]
      simp only
      rw [if_pos (by omega), loadLayers_saved ls fuel (i + 1) _ (by simp [hl]) (by omega) (by omega)]
      congr 1
      have e1 : ls[i - 0]'h.2 = ls[i] := by simp
      rw [e1]
      rw [List.take_succ_eq_append_getElem (by simp; omega)]
      simp only [List.getElem_set_self]
      rw [List.take_set_of_le (Nat.le_refl i), List.append_assoc, List.singleton_append, ← List.drop_eq_getElem_cons hi']
    · rw [dif_neg h]
      have hi' : i = ls.length := by omega
      simp only [PyDict.get?]
      rw [hi', List.drop_length, List.append_nil, ← hl, List.take_length]

theorem load_eq {A W : Type} (fresh : Nat → W × W) (f : H5 A W) (names : List String) (n m w d : Nat) (hn : f.names = some names)
    (h1 : PyDict.get? f.scalars "in_size" = some n) (h2 : PyDict.get? f.scalars "out_size" = some m)
    (h3 : PyDict.get? f.scalars "width_size" = some w) (h4 : PyDict.get? f.scalars "depth" = some d) :
    load fresh f = (loadLayers f.groups (f.groups.length + 1) 0 ((List.range (d + 1)).map fresh)).map
      fun layers => (names, ⟨n, m, w, d, layers⟩) := by
  unfold load
  simp only [hn, scalar, h1, h2, h3, h4, bind, Except.bind, pure, Except.pure]
  cases loadLayers f.groups (f.groups.length + 1) 0 ((List.range (d + 1)).map fresh) <;> rfl

/-- **C53.** Loading a saved network gives back the same sizes, the same weights and biases layer by layer and the same
names, for every architecture (an MLP of depth `d` has `d + 1` layers) and whatever the fresh weights are.  The network must be
wrapped by `eqx.filter_checkpoint`, as the training function does. -/
theorem C53_save_load_roundtrip_partial {A W : Type} (path : String) (hp : path.endsWith ".hdf5" = true) (attr : Dict String A)
    (m : MLP W) (hm : m.layers.length = m.depth + 1) (names : List String) (isLog : A) (fresh : Nat → W × W) :
    ∃ f, save path attr (.checkpointed m) (some names) isLog = .ok f ∧ load fresh f = .ok (names, m) := by
  unfold save
  rw [if_neg (by simpa using hp)]
  refine ⟨_, rfl, ?_⟩
  rw [load_eq fresh _ names m.inSize m.outSize m.widthSize m.depth rfl rfl rfl rfl rfl]
  rw [loadLayers_saved m.layers _ 0 _ (by simp [hm]) (Nat.zero_le _)
    (by rw [saveLayers_length _ _ _ (by simp [PyDict.keys])]; simp)]
  simp [Except.map]

/-- **C53 (violated).** A network that is not wrapped cannot be saved at all; in particular one that was just loaded. -/
theorem C53_plain_network_violated {A W : Type} (path : String) (hp : path.endsWith ".hdf5" = true) (attr : Dict String A)
    (m : MLP W) (names : Option (List String)) (isLog : A) : save path attr (.plain m) names isLog = .error .attribute := by
  unfold save
  rw [if_neg (by simpa using hp)]
  rfl

/-- **C53.** A path without the `.hdf5` ending is refused, and a file saved without names cannot be loaded. -/
theorem C53_bad_files_rejected {A W : Type} (path : String) (attr : Dict String A) (m : Network W)
    (names : Option (List String)) (isLog : A) (fresh : Nat → W × W) (f : H5 A W) :
    (path.endsWith ".hdf5" = false → save path attr m names isLog = .error .valueError) ∧
    (save path attr m none isLog = .ok f → load fresh f = .error .key) := by
  constructor
  · intro h
    unfold save
    rw [if_pos (by simp [h])]
  · intro h
    unfold save at h
    split_ifs at h
    cases m with
    | plain m => simp [Network.inner] at h
    | checkpointed m =>
      simp only [Network.inner, Except.ok.injEq] at h
      subst h
      rfl

/-- The layers that the loop reaches: those before the first missing group. -/
theorem loadLayers_key {W : Type} (g : Dict String (Dict String W)) (k : Nat) (dk : Dict String W)
    (hk : PyDict.get? g (layerName k) = some dk)
    (hmiss : PyDict.get? dk ("weight_" ++ toString k) = none ∨ PyDict.get? dk ("bias_" ++ toString k) = none) :
    ∀ (fuel i : Nat) (layers : List (W × W)), i ≤ k → k - i < fuel → k < layers.length →
      (∀ j, j < k → ∃ dj w b, PyDict.get? g (layerName j) = some dj ∧ PyDict.get? dj ("weight_" ++ toString j) = some w ∧
        PyDict.get? dj ("bias_" ++ toString j) = some b) →
      loadLayers g fuel i layers = .error .key
  | 0, i, layers, _, hf, _, _ => by omega
  | fuel + 1, i, layers, hi, hf, hl, hall => by
    unfold loadLayers
    rcases Nat.lt_or_ge i k with h | h
    · obtain ⟨dj, w, b, e1, e2, e3⟩ := hall i h
      simp only [e1, e2, e3]
      rw [if_pos (by omega)]
      exact loadLayers_key g k dk hk hmiss fuel (i + 1) _ (by omega) (by omega) (by simpa using hl) hall
    · have : i = k := by omega
      subst this
      rw [hk]
      rcases hmiss with h | h
      · simp only [h]
      · simp only [h]
        cases PyDict.get? dk ("weight_" ++ toString i) <;> rfl

/-- Consecutive groups `layer_0`, …, `layer_k` make at least `k + 1` groups. -/
theorem groups_length {W : Type} (g : Dict String (Dict String W)) (k : Nat)
    (h : ∀ j, j ≤ k → ∃ dj, PyDict.get? g (layerName j) = some dj) : k < g.length := by
  have hsub : ((List.range (k + 1)).map layerName) ⊆ PyDict.keys g := by
    intro x hx
    simp only [List.mem_map, List.mem_range] at hx
    obtain ⟨j, hj, rfl⟩ := hx
    obtain ⟨dj, e⟩ := h j (by omega)
    rw [PyDict.mem_keys_iff, e]; rfl
  have hnd : ((List.range (k + 1)).map layerName).Nodup :=
    List.Nodup.map (fun a b e => layerName_inj e) List.nodup_range
  have := (List.subperm_of_subset hnd hsub).length_le
  simp [PyDict.keys] at this
  omega

/-- **C53** (missing fields).  Loading raises `KeyError` when the names or one of the four sizes is not in the file, and when a
layer group, all groups before it being complete, lacks its weights or its biases. -/
theorem C53_missing_fields_partial {A W : Type} (fresh : Nat → W × W) (f : H5 A W) :
    (f.names = none → load fresh f = .error .key) ∧
    (∀ k ∈ ["in_size", "out_size", "width_size", "depth"], PyDict.get? f.scalars k = none → load fresh f = .error .key) ∧
    ∀ (k d : Nat) (dk : Dict String W), PyDict.get? f.scalars "depth" = some d → k ≤ d →
      PyDict.get? f.groups (layerName k) = some dk →
      (PyDict.get? dk ("weight_" ++ toString k) = none ∨ PyDict.get? dk ("bias_" ++ toString k) = none) →
      (∀ j, j < k → ∃ dj w b, PyDict.get? f.groups (layerName j) = some dj ∧
        PyDict.get? dj ("weight_" ++ toString j) = some w ∧ PyDict.get? dj ("bias_" ++ toString j) = some b) →
      load fresh f = .error .key := by
  refine ⟨fun h => by unfold load; rw [h], fun k hk h => ?_, fun k d dk hd hkd hk hmiss hall => ?_⟩
  · unfold load
    cases f.names with
    | none => rfl
    | some names =>
      simp only [scalar, bind, Except.bind, pure, Except.pure]
      simp only [List.mem_cons, List.not_mem_nil, or_false] at hk
      rcases hk with rfl | rfl | rfl | rfl
      · simp only [h]
      · simp only [h]
        cases PyDict.get? f.scalars "in_size" <;> rfl
      · simp only [h]
        cases PyDict.get? f.scalars "in_size" <;> cases PyDict.get? f.scalars "out_size" <;> rfl
      · simp only [h]
        cases PyDict.get? f.scalars "in_size" <;> cases PyDict.get? f.scalars "out_size" <;>
          cases PyDict.get? f.scalars "width_size" <;> rfl
  · have hlen := groups_length f.groups k fun j hj => by
      rcases Nat.lt_or_ge j k with h | h
      · obtain ⟨dj, w, b, e, _, _⟩ := hall j h
        exact ⟨dj, e⟩
      · have : j = k := by omega
        subst this; exact ⟨dk, hk⟩
    have := loadLayers_key f.groups k dk hk hmiss (f.groups.length + 1) 0 ((List.range (d + 1)).map fresh) (Nat.zero_le _)
      (by omega) (by simp; omega) hall
    unfold load
    cases f.names with
    | none => rfl
    | some names =>
      simp only [scalar, hd, bind, Except.bind, this]
      cases PyDict.get? f.scalars "in_size" <;> cases PyDict.get? f.scalars "out_size" <;>
        cases PyDict.get? f.scalars "width_size" <;> rfl

/-- The loop fails at the first group beyond the layers of the network. -/
theorem loadLayers_extra {W : Type} (g : Dict String (Dict String W)) :
    ∀ (fuel i : Nat) (layers : List (W × W)), i ≤ layers.length → layers.length - i < fuel →
      (∀ j, j ≤ layers.length → ∃ dj w b, PyDict.get? g (layerName j) = some dj ∧ PyDict.get? dj ("weight_" ++ toString j) = some w ∧
        PyDict.get? dj ("bias_" ++ toString j) = some b) →
      loadLayers g fuel i layers = .error .index
  | 0, i, layers, _, hf, _ => by omega
  | fuel + 1, i, layers, hi, hf, hall => by
    unfold loadLayers
    obtain ⟨dj, w, b, e1, e2, e3⟩ := hall i hi
    simp only [e1, e2, e3]
    rcases Nat.lt_or_ge i layers.length with h | h
    · rw [if_pos h]
      exact loadLayers_extra g fuel (i + 1) _ (by simp; omega) (by simp; omega) (by simpa using hall)
    · rw [if_neg (by omega)]

/-- **C53** (too many layers).  A file whose layer groups go beyond the depth it declares is refused: there is no layer to put them in. -/
theorem C53_extra_layer_rejected {A W : Type} (fresh : Nat → W × W) (f : H5 A W) (names : List String) (n m w d : Nat)
    (hn : f.names = some names) (h1 : PyDict.get? f.scalars "in_size" = some n) (h2 : PyDict.get? f.scalars "out_size" = some m)
    (h3 : PyDict.get? f.scalars "width_size" = some w) (h4 : PyDict.get? f.scalars "depth" = some d)
    (hall : ∀ j, j ≤ d + 1 → ∃ dj w b, PyDict.get? f.groups (layerName j) = some dj ∧
      PyDict.get? dj ("weight_" ++ toString j) = some w ∧ PyDict.get? dj ("bias_" ++ toString j) = some b) :
    load fresh f = .error .index := by
  have hlen := groups_length f.groups (d + 1) fun j hj => by
    obtain ⟨dj, _, _, e, _, _⟩ := hall j hj
    exact ⟨dj, e⟩
  rw [load_eq fresh f names n m w d hn h1 h2 h3 h4,
    loadLayers_extra f.groups _ 0 _ (Nat.zero_le _) (by simp; omega) (by simpa using hall)]
  rfl

/-- A file that declares depth 0 (one layer) and has two layer groups. -/
example : load (A := Unit) (W := Nat) (fun _ => (0, 0))
    ⟨[], some ["x"], [("in_size", 1), ("out_size", 1), ("width_size", 1), ("depth", 0)],
      [("layer_0", [("weight_0", 1), ("bias_0", 2)]), ("layer_1", [("weight_1", 1), ("bias_1", 2)])]⟩ = .error .index := by
  refine C53_extra_layer_rejected _ _ ["x"] 1 1 1 0 rfl rfl rfl rfl rfl fun j hj => ?_
  match j, hj with
  | 0, _ => exact ⟨_, 1, 2, rfl, rfl, rfl⟩
  | 1, _ => exact ⟨_, 1, 2, rfl, rfl, rfl⟩

/-- The loop stops silently at the first missing group. -/
theorem loadLayers_cut {W : Type} (ls : List (W × W)) (g : Dict String (Dict String W)) (k : Nat) (hk : k ≤ ls.length)
    (hsame : ∀ j, j < k → PyDict.get? g (layerName j) = PyDict.get? (saveLayers 0 ls []) (layerName j))
    (hmiss : PyDict.get? g (layerName k) = none) :
    ∀ (fuel i : Nat) (layers : List (W × W)), layers.length = ls.length → i ≤ k → k - i < fuel →
      loadLayers g fuel i layers = .ok (layers.take i ++ (ls.take k).drop i ++ layers.drop k)
  | 0, i, layers, _, _, h => by omega
  | fuel + 1, i, layers, hl, hi, hf => by
    unfold loadLayers
    rcases Nat.lt_or_ge i k with h | h
    · rw [hsame i h, saveLayers_spec, dif_pos (by omega)]
      simp only
      rw [PyDict.get?_set_ne _ _ (weight_ne_bias i), PyDict.get?_set_self, PyDict.get?_set_self]
      simp only
      rw [if_pos (by omega), loadLayers_cut ls g k hk hsame hmiss fuel (i + 1) _ (by simp [hl]) (by omega) (by omega)]
      congr 1
      have hik : i < (ls.take k).length := by simp; omega
      rw [List.take_succ_eq_append_getElem (by simp; omega), List.take_set_of_le (Nat.le_refl i), List.drop_set_of_lt h,
        List.drop_eq_getElem_cons hik]
      simp
    · have : i = k := by omega
      subst this
      rw [hmiss]
      simp [List.drop_take]

/-- **C53 (violated).** A missing layer does not raise: if the groups from number `k` on are not in the file (say, the file was
cut short), loading succeeds and those layers keep the weights of a freshly initialised network. -/
theorem C53_missing_layer_violated {A W : Type} (path : String) (attr : Dict String A)
    (m : MLP W) (hm : m.layers.length = m.depth + 1) (names : List String) (isLog : A) (fresh : Nat → W × W) (f : H5 A W)
    (hf : save path attr (.checkpointed m) (some names) isLog = .ok f) (k : Nat) (hk : k ≤ m.depth)
    (g : Dict String (Dict String W)) (hsame : ∀ j, j < k → PyDict.get? g (layerName j) = PyDict.get? f.groups (layerName j))
    (hmiss : PyDict.get? g (layerName k) = none) :
    ∃ m' : MLP W, load fresh { f with groups := g } = .ok (names, m') ∧ m'.layers.length = m.depth + 1 ∧
      ∀ i, i ≤ m.depth → m'.layers[i]? = if i < k then m.layers[i]? else some (fresh i) := by
  unfold save at hf
  split_ifs at hf
  simp only [Network.inner, Except.ok.injEq] at hf
  subst hf
  rw [load_eq fresh _ names m.inSize m.outSize m.widthSize m.depth rfl rfl rfl rfl rfl]
  have hlen : k ≤ g.length := by
    rcases Nat.eq_zero_or_pos k with h | h
    · omega
    · have := groups_length g (k - 1) fun j hj => by
        rw [hsame j (by omega)]
        simp only
        rw [saveLayers_spec, dif_pos (by omega)]
        exact ⟨_, rfl⟩
      omega
  rw [loadLayers_cut m.layers g k (by omega) hsame hmiss _ 0 _ (by simp [hm]) (Nat.zero_le _) (by simp only; omega)]
  refine ⟨_, rfl, ?_, fun i hi => ?_⟩
  · simp; omega
  · simp only [List.take_zero, List.nil_append, List.drop_zero]
    split_ifs with h
    · rw [List.getElem?_append_left (by simp; omega), List.getElem?_take_of_lt h]
    · rw [List.getElem?_append_right (by simp; omega), List.getElem?_drop, List.length_take, Nat.min_eq_left (by omega),
        Nat.add_sub_cancel' (by omega)]
      simp [Nat.lt_succ_of_le hi]

/-- **C53.** The attributes of the data file are kept, and `is_log` records the training mode. -/
theorem C53_attributes_kept {A W : Type} (path : String) (attr : Dict String A) (hn : (PyDict.keys attr).Nodup) (m : Network W)
    (names : Option (List String)) (isLog : A) (f : H5 A W) (h : save path attr m names isLog = .ok f) :
    PyDict.get? f.attrs "is_log" = some isLog ∧
    ∀ k v, k ≠ "is_log" → PyDict.get? attr k = some v → PyDict.get? f.attrs k = some v := by
  unfold save at h
  split_ifs at h
  cases m with
  | plain m => simp [Network.inner] at h
  | checkpointed m =>
  simp only [Network.inner, Except.ok.injEq] at h
  subst h
  refine ⟨PyDict.get?_set_self _ _ _, fun k v hk hv => ?_⟩
  simp only
  rw [PyDict.get?_set_ne _ _ hk]
  have key : ∀ (l d : Dict String A), (PyDict.keys l).Nodup → PyDict.get? l k = some v →
      PyDict.get? (l.foldl (fun d p => PyDict.set d p.1 p.2) d) k = some v := by
    intro l
    induction l with
    | nil => intro d _ h; simp [PyDict.get?] at h
    | cons p l ih =>
      intro d hnd h
      simp only [PyDict.keys, List.map_cons, List.nodup_cons] at hnd
      rw [List.foldl_cons]
      simp only [PyDict.get?] at h
      split_ifs at h with hp
      · simp only [Option.some.injEq] at h
        subst hp h
        have : ∀ (l d : Dict String A), p.1 ∉ PyDict.keys l → PyDict.get? d p.1 = some p.2 →
            PyDict.get? (l.foldl (fun d p => PyDict.set d p.1 p.2) d) p.1 = some p.2 := by
          intro l
          induction l with
          | nil => exact fun d _ h => h
          | cons q l ih2 =>
            intro d hnot hd
            simp only [PyDict.keys, List.map_cons, List.mem_cons, not_or] at hnot
            exact ih2 _ hnot.2 (by rw [PyDict.get?_set_ne _ _ hnot.1]; exact hd)
        exact this l _ hnd.1 (PyDict.get?_set_self _ _ _)
      · exact ih _ hnd.2 h
  exact key attr [] hn hv

/-- Non-vacuity of C53. -/
example : ∃ f, save "m.hdf5" [("analysis_time", 1)] (.checkpointed (⟨3, 1, 4, 1, [(10, 11), (12, 13)]⟩ : MLP Nat)) (some ["a", "b", "c"]) 0
    = .ok f ∧ load (fun i => (i, i)) f = .ok (["a", "b", "c"], ⟨3, 1, 4, 1, [(10, 11), (12, 13)]⟩) :=
  C53_save_load_roundtrip_partial _ (by decide +kernel) _ _ rfl _ _ _

/-- The same file without its second layer: the loaded network has the first layer of the saved one and a fresh second one. -/
example : load (A := Nat) (fun i => (100 + i, 200 + i))
    ⟨[], some ["a", "b", "c"], [("in_size", 3), ("out_size", 1), ("width_size", 4), ("depth", 1)],
      [("layer_0", [("weight_0", 10), ("bias_0", 11)])]⟩ = .ok (["a", "b", "c"], ⟨3, 1, 4, 1, [(10, 11), (101, 201)]⟩) := by
  rfl

/-- A layer without biases, and a file without its depth. -/
example : load (A := Nat) (fun i => (i, i)) ⟨[], some ["a"], [("in_size", 1), ("out_size", 1), ("width_size", 4), ("depth", 0)],
      [("layer_0", [("weight_0", 10)])]⟩ = .error .key :=
  (C53_missing_fields_partial _ _).2.2 0 0 [("weight_0", 10)] (by decide +kernel) (Nat.le_refl _) (by decide +kernel) (Or.inr (by decide +kernel))
    (fun j hj => absurd hj (Nat.not_lt_zero _))
example : load (A := Nat) (W := Nat) (fun i => (i, i)) ⟨[], some ["a"], [("in_size", 1), ("out_size", 1), ("width_size", 4)], []⟩ = .error .key :=
  (C53_missing_fields_partial _ _).2.1 "depth" (by simp) (by decide +kernel)

end GW.ModelFile
