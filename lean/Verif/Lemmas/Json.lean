import Verif.Spec.Json

/-! # Lemmas about the JSON reader and writer -/

namespace GW.Json

variable {F : Type}

/-! ## Blanks -/

theorem isWs_iff (c : Char) : isWs c = true ↔ c ∈ [' ', '\t', '\n', '\r'] := by simp [isWs]

theorem skipWs_blank {w s : Text} (hw : Blank w) : skipWs (w ++ s) = skipWs s := by
  unfold skipWs
  rw [List.dropWhile_append_of_pos fun c hc => (isWs_iff c).2 (hw c hc)]

theorem skipWs_cons {c : Char} {s : Text} (h : isWs c = false) : skipWs (c :: s) = c :: s := by simp [skipWs, h]

theorem skipWs_blank_cons {w s : Text} {c : Char} (hw : Blank w) (h : isWs c = false) : skipWs (w ++ c :: s) = c :: s := by
  rw [skipWs_blank hw, skipWs_cons h]

theorem blank_newline (l : ℕ) : Blank (newline l) := by
  intro c hc
  rcases List.mem_cons.1 hc with rfl | h
  · simp
  · rw [List.eq_of_mem_replicate h]; simp

/-! ## Strings -/

theorem HexDigit.value {c : Char} {n : ℕ} (h : HexDigit c n) : hexValue c = some n ∧ n < 16 ∧ c ≠ '\n' := by
  have hn : n < 16 := by rcases h with h | h <;> simpa using (List.getElem?_eq_some_iff.1 h).1
  have h1 : ∀ m < 16, hexValue ("0123456789abcdef".toList.getD m ' ') = some m ∧ m < 16 ∧ "0123456789abcdef".toList.getD m ' ' ≠ '\n' := by decide
  have h2 : ∀ m < 16, hexValue ("0123456789ABCDEF".toList.getD m ' ') = some m ∧ m < 16 ∧ "0123456789ABCDEF".toList.getD m ' ' ≠ '\n' := by decide
  rcases h with h | h
  · have := h1 n hn
    rwa [List.getD_eq_getElem?_getD, h, Option.getD_some] at this
  · have := h2 n hn
    rwa [List.getD_eq_getElem?_getD, h, Option.getD_some] at this

theorem hexDigit_hexDigit : ∀ n < 16, HexDigit (hexDigit n) n := by unfold HexDigit; decide

theorem Unit4.facts {n : ℕ} {t : Text} (h : Unit4 n t) :
    ∃ a b c d, t = ['\\', 'u', a, b, c, d] ∧ unhex4 a b c d = some n ∧ n < 0x10000 ∧ a ≠ '\n' ∧ b ≠ '\n' ∧ c ≠ '\n' ∧ d ≠ '\n' := by
  obtain ⟨a, b, c, d, w, x, y, z, rfl, ha, hb, hc, hd, rfl⟩ := h
  have h1 := ha.value
  have h2 := hb.value
  have h3 := hc.value
  have h4 := hd.value
  refine ⟨a, b, c, d, rfl, ?_, by omega, h1.2.2, h2.2.2, h3.2.2, h4.2.2⟩
  simp only [unhex4, h1.1, h2.1, h3.1, h4.1, Option.some.injEq]
  omega

theorem unit4_hex4 {n : ℕ} (h : n < 0x10000) : Unit4 n (hex4 n) :=
  ⟨_, _, _, _, n / 4096 % 16, n / 256 % 16, n / 16 % 16, n % 16, rfl, hexDigit_hexDigit _ (Nat.mod_lt _ (by decide)),
    hexDigit_hexDigit _ (Nat.mod_lt _ (by decide)), hexDigit_hexDigit _ (Nat.mod_lt _ (by decide)), hexDigit_hexDigit _ (Nat.mod_lt _ (by decide)), by omega⟩

/-- What follows a code point does not complete a surrogate pair. -/
def NoLow (r : Text) : Prop :=
  (∃ c t, r = c :: t ∧ c ≠ '\\') ∨ (∃ e t, r = '\\' :: e :: t ∧ e ≠ 'u') ∨ ∃ n u t, r = u ++ t ∧ Unit4 n u ∧ ¬ (0xdc00 ≤ n ∧ n ≤ 0xdfff)

theorem scanUnicode_unit {n : ℕ} {u r : Text} (h : Unit4 n u) (hr : (0xd800 ≤ n ∧ n ≤ 0xdbff) → NoLow r) :
    scanUnicode (u.drop 2 ++ r) = some (n, r) := by
  obtain ⟨a, b, c, d, rfl, hu, -⟩ := h.facts
  unfold scanUnicode
  simp only [List.drop_succ_cons, List.drop_zero, List.cons_append, List.nil_append, hu]
  split_ifs with hs
  · rcases hr hs with ⟨c, t, rfl, hc⟩ | ⟨e, t, rfl, he⟩ | ⟨m, u, t, rfl, hm, hlow⟩
    · split
      · next heq => simp only [List.cons.injEq] at heq; exact absurd heq.1 hc
      · rfl
    · split
      · next heq => simp only [List.cons.injEq] at heq; exact absurd heq.2.1 he
      · rfl
    · obtain ⟨a', b', c', d', rfl, hm', -⟩ := hm.facts
      simp only [List.cons_append, List.nil_append, hm', hlow, if_false]
  · rfl

theorem scanUnicode_two {u v : ℕ} {a b r : Text} (ha : Unit4 u a) (hb : Unit4 v b) (hu : 0xd800 ≤ u ∧ u ≤ 0xdbff) (hv : 0xdc00 ≤ v ∧ v ≤ 0xdfff) :
    scanUnicode (a.drop 2 ++ (b ++ r)) = some (0x10000 + 0x400 * (u - 0xd800) + (v - 0xdc00), r) := by
  obtain ⟨a1, a2, a3, a4, rfl, h1, -⟩ := ha.facts
  obtain ⟨b1, b2, b3, b4, rfl, h2, -⟩ := hb.facts
  unfold scanUnicode
  simp only [List.drop_succ_cons, List.drop_zero, List.cons_append, List.nil_append, h1, h2, hu, hv, and_self, if_true, Nat.mul_comm]

theorem ofNat_printable {n : ℕ} (h : 32 ≤ n ∧ n ≤ 126) : (Char.ofNat n).toNat = n := by
  have : ∀ n < 127, 32 ≤ n → (Char.ofNat n).toNat = n := by decide
  exact this n (by omega) h.1

/-- Reading what stands for one code point. -/
theorem scanString_spells {n : ℕ} {a : Text} (h : Spells n a) {r : Text} (hr : (0xd800 ≤ n ∧ n ≤ 0xdbff) → NoLow r) (k : ℕ) :
    scanString (k + 1) (a ++ r) = (scanString k r).map fun p => (n :: p.1, p.2) := by
  rcases h with ⟨c, rfl, rfl, h32, h1, h2⟩ | ⟨e, rfl, he⟩ | hu | ⟨u, v, s, t, hs, ht, rfl, hu, hv, hn⟩
  · rw [List.cons_append, List.nil_append, scanString.eq_def]
    simp only [if_neg h1, if_neg h2, if_neg (show ¬ c.toNat < 32 by omega)]
  · simp only [List.mem_cons, List.not_mem_nil, or_false, Prod.mk.injEq] at he
    rcases he with ⟨rfl, rfl⟩ | ⟨rfl, rfl⟩ | ⟨rfl, rfl⟩ | ⟨rfl, rfl⟩ | ⟨rfl, rfl⟩ | ⟨rfl, rfl⟩ | ⟨rfl, rfl⟩ | ⟨rfl, rfl⟩ <;> rfl
  · have hs := scanUnicode_unit hu hr
    obtain ⟨a, b, c, d, rfl, -⟩ := hu.facts
    rw [List.cons_append, List.cons_append, scanString]
    rw [if_neg (by decide), if_pos rfl]
    simp only [List.drop_succ_cons, List.drop_zero] at hs
    simp only [if_true, hs]
  · have hsc := scanUnicode_two (r := r) hs ht hu hv
    rw [← hn] at hsc
    obtain ⟨a, b, c, d, rfl, -⟩ := hs.facts
    rw [List.append_assoc, List.cons_append, List.cons_append, scanString]
    rw [if_neg (by decide), if_pos rfl]
    simp only [List.drop_succ_cons, List.drop_zero] at hsc
    simp only [if_true, hsc]

theorem noLow_quote (r : Text) : NoLow ('"' :: r) := Or.inl ⟨_, _, rfl, by decide⟩

theorem noLow_spells {n : ℕ} {a : Text} (h : Spells n a) (hlow : ¬ (0xdc00 ≤ n ∧ n ≤ 0xdfff)) (r : Text) : NoLow (a ++ r) := by
  rcases h with ⟨c, rfl, -, -, -, h2⟩ | ⟨e, rfl, he⟩ | hu | ⟨u, v, s, t, hs, ht, rfl, hu, hv, -⟩
  · exact Or.inl ⟨c, r, rfl, h2⟩
  · refine Or.inr (Or.inl ⟨e, r, rfl, ?_⟩)
    rintro rfl
    simp at he
  · exact Or.inr (Or.inr ⟨n, a, r, rfl, hu, hlow⟩)
  · exact Or.inr (Or.inr ⟨u, s, t ++ r, List.append_assoc _ _ _, hs, by omega⟩)

theorem scanString_body (s : List ℕ) (hs : StringOk s) (body r : Text) (hb : SpellsAll s body) :
    ∀ k, s.length < k → scanString k (body ++ '"' :: r) = some (s, r) := by
  induction s generalizing body with
  | nil =>
    intro k hk
    obtain ⟨k, rfl⟩ : ∃ j, k = j + 1 := ⟨k - 1, by simp at hk; omega⟩
    rw [SpellsAll] at hb
    subst hb
    rfl
  | cons n s ih =>
    intro k hk
    obtain ⟨k, rfl⟩ : ∃ j, k = j + 1 := ⟨k - 1, by simp at hk; omega⟩
    have hs' : StringOk s := ⟨fun m hm => hs.1 m (by simp [hm]), fun a b hab => hs.2 a b (hab.trans (List.suffix_cons n s).isInfix)⟩
    rw [SpellsAll] at hb
    obtain ⟨a, b, ha, hb, rfl⟩ := hb
    rw [List.append_assoc, scanString_spells ha, ih hs' b hb k (by simpa using hk)]
    · rfl
    · intro hhigh
      cases s with
      | nil =>
        rw [SpellsAll] at hb
        subst hb
        exact noLow_quote r
      | cons m s =>
        rw [SpellsAll] at hb
        obtain ⟨a', b', ha', -, rfl⟩ := hb
        rw [List.append_assoc]
        refine noLow_spells ha' (fun hl => hs.2 n m ?_ ⟨hhigh, hl⟩) _
        exact ⟨[], s, by simp⟩

theorem Spells.pos {n : ℕ} {a : Text} (h : Spells n a) : 1 ≤ a.length := by
  rcases h with ⟨c, rfl, -⟩ | ⟨e, rfl, -⟩ | hu | ⟨u, v, s, t, hs, -, rfl, -⟩
  · simp
  · simp
  · obtain ⟨a, b, c, d, rfl, -⟩ := hu.facts; simp
  · obtain ⟨a, b, c, d, rfl, -⟩ := hs.facts; simp

theorem SpellsAll.length : ∀ {s : List ℕ} {body : Text}, SpellsAll s body → s.length ≤ body.length
  | [], _, _ => by simp
  | n :: s, body, h => by
    rw [SpellsAll] at h
    obtain ⟨a, b, ha, hb, rfl⟩ := h
    have := ha.pos
    have := hb.length
    simp only [List.length_append, List.length_cons]; omega

theorem Quoted.length {s : List ℕ} {q : Text} (h : Quoted s q) : s.length + 2 ≤ q.length := by
  obtain ⟨body, hb, rfl⟩ := h
  have := hb.length
  simp only [List.cons_append, List.length_cons, List.length_append, List.length_nil]; omega

theorem quoted_cons (body r : Text) : '"' :: body ++ ['"'] ++ r = '"' :: (body ++ '"' :: r) := by simp

theorem Spells.noNl {n : ℕ} {a : Text} (h : Spells n a) : '\n' ∉ a := by
  have hu4 : ∀ {m u}, Unit4 m u → '\n' ∉ u := by
    intro m u hu
    obtain ⟨a, b, c, d, rfl, -, -, ha, hb, hc, hd⟩ := hu.facts
    simp only [List.mem_cons, List.not_mem_nil, or_false, not_or]
    exact ⟨by decide, by decide, ha.symm, hb.symm, hc.symm, hd.symm⟩
  rcases h with ⟨c, rfl, rfl, h32, -⟩ | ⟨e, rfl, he⟩ | hu | ⟨u, v, s, t, hs, ht, rfl, -⟩
  · simp only [List.mem_singleton]
    rintro rfl
    exact absurd h32 (by decide)
  · simp only [List.mem_cons, List.not_mem_nil, or_false, not_or]
    refine ⟨by decide, ?_⟩
    rintro rfl
    simp at he
  · exact hu4 hu
  · rw [List.mem_append, not_or]; exact ⟨hu4 hs, hu4 ht⟩

theorem SpellsAll.noNl : ∀ {s : List ℕ} {body : Text}, SpellsAll s body → '\n' ∉ body
  | [], _, h => by rw [SpellsAll] at h; subst h; simp
  | n :: s, body, h => by
    rw [SpellsAll] at h
    obtain ⟨a, b, ha, hb, rfl⟩ := h
    rw [List.mem_append, not_or]
    exact ⟨ha.noNl, hb.noNl⟩

theorem Quoted.noNl {s : List ℕ} {q : Text} (h : Quoted s q) : '\n' ∉ q := by
  obtain ⟨body, hb, rfl⟩ := h
  simp only [List.cons_append, List.mem_cons, List.mem_append, List.not_mem_nil, or_false, not_or]
  exact ⟨by decide, hb.noNl, by decide⟩

/-- What the writer writes for one code point. -/
theorem spells_escape {n : ℕ} (hn : n < 0x110000) : Spells n (escape n) := by
  unfold escape
  split_ifs with h1 h2 h3 h4 h5 h6 h7 h8 h9
  · subst h1; exact Or.inr (Or.inl ⟨_, rfl, by simp⟩)
  · subst h2; exact Or.inr (Or.inl ⟨_, rfl, by simp⟩)
  · subst h3; exact Or.inr (Or.inl ⟨_, rfl, by simp⟩)
  · subst h4; exact Or.inr (Or.inl ⟨_, rfl, by simp⟩)
  · subst h5; exact Or.inr (Or.inl ⟨_, rfl, by simp⟩)
  · subst h6; exact Or.inr (Or.inl ⟨_, rfl, by simp⟩)
  · subst h7; exact Or.inr (Or.inl ⟨_, rfl, by simp⟩)
  · have ht := ofNat_printable h8
    refine Or.inl ⟨_, rfl, ht, h8.1, fun e => h2 (by rw [← ht, e]; rfl), fun e => h1 (by rw [← ht, e]; rfl)⟩
  · exact Or.inr (Or.inr (Or.inl (unit4_hex4 h9)))
  · refine Or.inr (Or.inr (Or.inr ⟨_, _, _, _, unit4_hex4 ?_, unit4_hex4 ?_, rfl, ?_, ?_, ?_⟩)) <;> omega

theorem quoted_quote {s : List ℕ} (h : StringOk s) : Quoted s (quote s) := by
  refine ⟨s.flatMap escape, ?_, rfl⟩
  have h1 := h.1
  clear h
  induction s with
  | nil => rfl
  | cons n s ih =>
    rw [SpellsAll, List.flatMap_cons]
    exact ⟨_, _, spells_escape (h1 n (by simp)), ih fun m hm => h1 m (by simp [hm]), rfl⟩

/-! ## Numbers -/

/-- What may follow a number. -/
def Ends (r : Text) : Prop := r = [] ∨ ∃ c t, r = c :: t ∧ c ∈ [',', ']', '}', ' ', '\t', '\n', '\r']

theorem isDig_iff (c : Char) : isDig c = true ↔ c.isDigit = true := by
  simp [isDig, Char.isDigit]
  exact Iff.rfl

theorem Ends.not_dig {r : Text} (h : Ends r) : r.takeWhile isDig = [] ∧ r.dropWhile isDig = r := by
  rcases h with rfl | ⟨c, t, rfl, hc⟩
  · simp
  · have : isDig c = false := by
      simp only [List.mem_cons, List.not_mem_nil, or_false] at hc
      rcases hc with rfl | rfl | rfl | rfl | rfl | rfl | rfl <;> decide
    simp [this]

theorem span_digits {ds r : Text} (h : Digits ds) (hr : r.takeWhile isDig = [] ∧ r.dropWhile isDig = r) :
    (ds ++ r).takeWhile isDig = ds ∧ (ds ++ r).dropWhile isDig = r := by
  have hd : ∀ c ∈ ds, isDig c = true := fun c hc => (isDig_iff c).2 (h c hc)
  rw [List.takeWhile_append_of_pos hd, List.dropWhile_append_of_pos hd, hr.1, hr.2]
  simp

/-- A text that does not begin with a digit. -/
def NoDig (r : Text) : Prop := r.takeWhile isDig = [] ∧ r.dropWhile isDig = r

theorem noDig_cons {c : Char} {r : Text} (h : isDig c = false) : NoDig (c :: r) := by simp [NoDig, h]

theorem scanNat_text {int r : Text} (h : int = ['0'] ∨ ∃ c ds, int = c :: ds ∧ c ≠ '0' ∧ Digits (c :: ds)) (hr : NoDig r) :
    scanNat (int ++ r) = some (int, r) := by
  rcases h with rfl | ⟨c, ds, rfl, hc, hd⟩
  · rfl
  · have h1 : isDig c = true := (isDig_iff c).2 (hd c (by simp))
    obtain ⟨h2, h3⟩ := span_digits (ds := ds) (r := r) (fun x hx => hd x (by simp [hx])) hr
    rw [List.cons_append, scanNat, if_neg hc, if_pos h1, h2, h3]

theorem scanInt_text {sign int r : Text} (hs : sign = [] ∨ sign = ['-'])
    (h : int = ['0'] ∨ ∃ c ds, int = c :: ds ∧ c ≠ '0' ∧ Digits (c :: ds)) (hr : NoDig r) :
    scanInt (sign ++ int ++ r) = some (sign ++ int, r) := by
  have hn := scanNat_text h hr
  rcases hs with rfl | rfl
  · rw [List.nil_append]
    have : ∃ c t, int ++ r = c :: t ∧ c ≠ '-' := by
      rcases h with rfl | ⟨c, ds, rfl, _, hd⟩
      · exact ⟨_, _, rfl, by decide⟩
      · refine ⟨c, ds ++ r, rfl, fun e => ?_⟩
        have := hd c (by simp)
        rw [e] at this
        exact absurd this (by decide)
    obtain ⟨c, t, e, hc⟩ := this
    unfold scanInt
    split
    · next heq => rw [e] at heq; simp only [List.cons.injEq] at heq; exact absurd heq.1 hc
    · exact hn
  · simp only [List.cons_append, List.nil_append, scanInt, hn, Option.map_some]

theorem scanFrac_text {frac r : Text} (h : frac = [] ∨ ∃ ds, frac = '.' :: ds ∧ ds ≠ [] ∧ Digits ds) (hr : NoDig r) (hdot : r.head? ≠ some '.') :
    scanFrac (frac ++ r) = (frac, r) := by
  rcases h with rfl | ⟨ds, rfl, hne, hd⟩
  · rw [List.nil_append]
    unfold scanFrac
    split
    · exact absurd rfl hdot
    · rfl
  · obtain ⟨h2, h3⟩ := span_digits hd hr
    rw [List.cons_append, scanFrac, h2, h3, if_neg hne]

theorem digits_head {ds : Text} (hne : ds ≠ []) (hd : Digits ds) : ∃ c t, ds = c :: t ∧ c ≠ '-' ∧ c ≠ '+' := by
  cases ds with
  | nil => exact absurd rfl hne
  | cons c t =>
    have := hd c (by simp)
    refine ⟨c, t, rfl, ?_, ?_⟩ <;> rintro rfl <;> exact absurd this (by decide)

theorem scanExp_text {exp r : Text}
    (h : exp = [] ∨ ∃ e s ds, exp = e :: s ++ ds ∧ (e = 'e' ∨ e = 'E') ∧ (s = [] ∨ s = ['+'] ∨ s = ['-']) ∧ ds ≠ [] ∧ Digits ds)
    (hr : Ends r) : scanExp (exp ++ r) = (exp, r) := by
  rcases h with rfl | ⟨e, s, ds, rfl, he, hs, hne, hd⟩
  · rcases hr with rfl | ⟨c, t, rfl, hc⟩
    · rfl
    · have : ¬ (c = 'e' ∨ c = 'E') := by
        simp only [List.mem_cons, List.not_mem_nil, or_false] at hc
        rcases hc with rfl | rfl | rfl | rfl | rfl | rfl | rfl <;> decide
      rw [List.nil_append, scanExp, if_neg this]
  · obtain ⟨h2, h3⟩ := span_digits hd hr.not_dig
    obtain ⟨c, t, rfl, c1, c2⟩ := digits_head hne hd
    rw [show (e :: s ++ c :: t ++ r) = e :: (s ++ (c :: t ++ r)) by simp, scanExp, if_pos he]
    have hsign : signOf (s ++ (c :: t ++ r)) = s := by
      rcases hs with rfl | rfl | rfl
      · simp [signOf, c1, c2]
      · rfl
      · rfl
    simp only [hsign, List.drop_left, h2, h3, if_neg hne]

theorem Ends.noDig {r : Text} (h : Ends r) : NoDig r := h.not_dig

theorem ends_head {r : Text} (h : Ends r) {c : Char} (hc : c ∉ [',', ']', '}', ' ', '\t', '\n', '\r']) : r.head? ≠ some c := by
  rcases h with rfl | ⟨d, t, rfl, hd⟩
  · simp
  · intro e
    simp only [List.head?_cons, Option.some.injEq] at e
    exact hc (e ▸ hd)

/-- The first character of a number. -/
def NumHead (s : Text) : Prop := ∃ c t, s = c :: t ∧ (c = '-' ∨ c = 'N' ∨ c = 'I' ∨ c.isDigit = true)

theorem NumHead.facts {c : Char} (h : c = '-' ∨ c = 'N' ∨ c = 'I' ∨ c.isDigit = true) :
    c ≠ '"' ∧ c ≠ '{' ∧ c ≠ '[' ∧ c ≠ 'n' ∧ c ≠ 't' ∧ c ≠ 'f' ∧ isWs c = false ∧ c ≠ ']' ∧ c ≠ '\n' := by
  rcases h with rfl | rfl | rfl | h
  · decide
  · decide
  · decide
  · refine ⟨?_, ?_, ?_, ?_, ?_, ?_, ?_, ?_, ?_⟩
    any_goals (rintro rfl; exact absurd h (by decide))
    by_contra hc
    have := (isWs_iff c).1 (by simpa using hc)
    simp only [List.mem_cons, List.not_mem_nil, or_false] at this
    rcases this with rfl | rfl | rfl | rfl <;> exact absurd h (by decide)

theorem scan_number (fl : Floats F) {s : Text} (h : NumHead s) (n : ℕ) : scan fl (n + 1) s = scanNumber fl s := by
  obtain ⟨c, t, rfl, hc⟩ := h
  obtain ⟨h1, h2, h3, h4, h5, h6, -, -⟩ := NumHead.facts hc
  rw [scan, if_neg h1, if_neg h2, if_neg h3, if_neg, if_neg, if_neg]
  · intro e; simp at e; exact h6 e.1
  · intro e; simp at e; exact h5 e.1
  · intro e; simp at e; exact h4 e.1

theorem int_head {sign int r : Text} (hs : sign = [] ∨ sign = ['-']) (h : int = ['0'] ∨ ∃ c ds, int = c :: ds ∧ c ≠ '0' ∧ Digits (c :: ds)) :
    NumHead (sign ++ int ++ r) := by
  rcases hs with rfl | rfl
  · rcases h with rfl | ⟨c, ds, rfl, _, hd⟩
    · exact ⟨_, _, rfl, by decide⟩
    · exact ⟨c, ds ++ r, rfl, Or.inr (Or.inr (Or.inr (hd c (by simp))))⟩
  · exact ⟨_, _, rfl, Or.inl rfl⟩

theorem isFloatText_head {t : Text} (h : IsFloatText t) (r : Text) : NumHead (t ++ r) := by
  rcases h with rfl | rfl | rfl | ⟨sign, int, frac, exp, rfl, hs, hi, -⟩
  · exact ⟨_, _, rfl, by decide⟩
  · exact ⟨_, _, rfl, by decide⟩
  · exact ⟨_, _, rfl, by decide⟩
  · have := int_head (r := frac ++ exp ++ r) hs hi
    simpa only [List.append_assoc] using this

theorem scanNumber_float (fl : Floats F) {t r : Text} (h : IsFloatText t) (hr : Ends r) : scanNumber fl (t ++ r) = some (.flt (fl.parse t), r) := by
  rcases h with rfl | rfl | rfl | ⟨sign, int, frac, exp, rfl, hs, hi, hf, he, hne⟩
  · rfl
  · rfl
  · rfl
  · have nd : NoDig (exp ++ r) ∧ (exp ++ r).head? ≠ some '.' := by
      rcases he with rfl | ⟨e, s, ds, rfl, he, -⟩
      · exact ⟨hr.noDig, ends_head hr (by decide)⟩
      · refine ⟨noDig_cons ?_, ?_⟩
        · rcases he with rfl | rfl <;> decide
        · rcases he with rfl | rfl <;> simp
    have nd2 : NoDig (frac ++ (exp ++ r)) := by
      rcases hf with rfl | ⟨ds, rfl, -⟩
      · exact nd.1
      · exact noDig_cons (by decide)
    have e1 : sign ++ int ++ frac ++ exp ++ r = sign ++ int ++ (frac ++ (exp ++ r)) := by simp only [List.append_assoc]
    rw [e1, scanNumber, scanInt_text hs hi nd2]
    simp only [scanFrac_text hf nd.1 nd.2, scanExp_text he hr]
    rw [if_pos hne]

theorem natDigits_digits (k n : ℕ) : Digits (natDigits k n) := by
  have hd : ∀ m < 10, (Char.ofNat (48 + m)).isDigit = true := by decide
  induction k generalizing n with
  | zero => exact fun c hc => by simp only [natDigits, List.mem_singleton] at hc; rw [hc]; exact hd _ (Nat.mod_lt _ (by decide))
  | succ k ih =>
    rw [natDigits]
    split_ifs with h
    · exact fun c hc => by simp only [List.mem_singleton] at hc; rw [hc]; exact hd n h
    · intro c hc
      rcases List.mem_append.1 hc with hc | hc
      · exact ih _ c hc
      · simp only [List.mem_singleton] at hc; rw [hc]; exact hd _ (Nat.mod_lt _ (by decide))

theorem natText_digits (n : ℕ) : Digits (natText n) := natDigits_digits n n

theorem natDigits_head (k n : ℕ) (hn : n ≠ 0) (hk : n ≤ k) : ∃ c ds, natDigits k n = c :: ds ∧ c ≠ '0' := by
  induction k generalizing n with
  | zero => omega
  | succ k ih =>
    rw [natDigits]
    split_ifs with h
    · have hd : ∀ m < 10, m ≠ 0 → Char.ofNat (48 + m) ≠ '0' := by decide
      exact ⟨_, [], rfl, hd n h hn⟩
    · obtain ⟨c, ds, e, hc⟩ := ih (n / 10) (by omega) (by omega)
      exact ⟨c, _, by rw [e]; rfl, hc⟩

theorem natText_head (n : ℕ) : natText n = ['0'] ∨ ∃ c ds, natText n = c :: ds ∧ c ≠ '0' ∧ Digits (c :: ds) := by
  by_cases hn : n = 0
  · subst hn; left; rfl
  · obtain ⟨c, ds, e, hc⟩ := natDigits_head n n hn (Nat.le_refl n)
    exact Or.inr ⟨c, ds, e, hc, by have := natText_digits n; unfold natText at this; rw [e] at this; exact this⟩

theorem natValue_natDigits (k n : ℕ) (hk : n ≤ k) : natValue (natDigits k n) = n := by
  have hd : ∀ m < 10, (Char.ofNat (48 + m)).toNat - 48 = m := by decide
  induction k generalizing n with
  | zero => obtain rfl : n = 0 := by omega
            rfl
  | succ k ih =>
    rw [natDigits]
    split_ifs with h
    · simp [natValue, hd n h]
    · have := ih (n / 10) (by omega)
      unfold natValue at this ⊢
      rw [List.foldl_append, this]
      simp only [List.foldl_cons, List.foldl_nil, hd _ (Nat.mod_lt n (by decide : 0 < 10))]
      omega

theorem natValue_natText (n : ℕ) : natValue (natText n) = n := natValue_natDigits n n (Nat.le_refl n)

theorem isInt_intText (z : ℤ) : IsInt z (intText z) := by
  cases z with
  | ofNat n => exact ⟨[], natText n, rfl, natText_head n, n, natValue_natText n, Or.inl ⟨rfl, rfl⟩⟩
  | negSucc n => exact ⟨['-'], natText (n + 1), rfl, natText_head (n + 1), n + 1, natValue_natText (n + 1), Or.inr ⟨rfl, rfl⟩⟩

theorem IsInt.split {z : ℤ} {t : Text} (h : IsInt z t) : ∃ sign int : Text, t = sign ++ int ∧ (sign = [] ∨ sign = ['-']) ∧
    (int = ['0'] ∨ ∃ c ds, int = c :: ds ∧ c ≠ '0' ∧ Digits (c :: ds)) := by
  obtain ⟨sign, int, e, hi, m, -, ⟨hs, -⟩ | ⟨hs, -⟩⟩ := h
  · exact ⟨sign, int, e, Or.inl hs, hi⟩
  · exact ⟨sign, int, e, Or.inr hs, hi⟩

theorem IsInt.value {z : ℤ} {t : Text} (h : IsInt z t) : intValue t = z := by
  obtain ⟨sign, int, rfl, hi, m, hm, ⟨rfl, rfl⟩ | ⟨rfl, rfl⟩⟩ := h
  · rw [List.nil_append]
    unfold intValue
    split
    · rcases hi with h | ⟨c, ds, h, -, hd⟩
      · simp at h
      · simp only [List.cons.injEq] at h
        have := hd c (by simp)
        rw [← h.1] at this
        exact absurd this (by decide)
    · rw [natValue, hm]
  · rw [List.cons_append, List.nil_append, intValue, natValue, hm]

theorem scanNumber_int (fl : Floats F) {z : ℤ} {t : Text} (h : IsInt z t) {r : Text} (hr : Ends r) : scanNumber fl (t ++ r) = some (.int z, r) := by
  have hv := h.value
  obtain ⟨sign, int, rfl, hs, hi⟩ := h.split
  have h1 := scanFrac_text (frac := []) (Or.inl rfl) hr.noDig (ends_head hr (by decide))
  have h2 := scanExp_text (exp := []) (Or.inl rfl) hr
  rw [List.nil_append] at h1 h2
  rw [scanNumber, scanInt_text hs hi hr.noDig]
  simp only [h1, h2, ne_eq, not_true_eq_false, or_self, if_false, hv]

theorem IsInt.numHead {z : ℤ} {t : Text} (h : IsInt z t) (r : Text) : NumHead (t ++ r) := by
  obtain ⟨sign, int, rfl, hs, hi⟩ := h.split
  exact int_head hs hi

/-! ## Dictionaries -/

mutual
/-- A value with every dictionary as the reader makes it. -/
def norm : J F → J F
  | .arr vs => .arr (normItems vs)
  | .obj kvs => .obj (toDict (normFields kvs))
  | .null => .null
  | .bool b => .bool b
  | .int z => .int z
  | .flt f => .flt f
  | .str s => .str s
  | .other => .other

/-- `norm` for the items of a list. -/
def normItems : List (J F) → List (J F)
  | [] => []
  | v :: vs => norm v :: normItems vs

/-- `norm` for the items of a dictionary. -/
def normFields : List (List ℕ × J F) → List (List ℕ × J F)
  | [] => []
  | (k, v) :: kvs => (k, norm v) :: normFields kvs
end

theorem toDict_nodup {kvs : List (List ℕ × J F)} (h : (kvs.map Prod.fst).Nodup) : toDict kvs = kvs := by
  have key : ∀ (ps d : List (List ℕ × J F)), ((d ++ ps).map Prod.fst).Nodup → ps.foldl store d = d ++ ps := by
    intro ps
    induction ps with
    | nil => intro d _; simp
    | cons p ps ih =>
      intro d hd
      have hnot : (d.any fun q => q.1 = p.1) = false := by
        rw [List.any_eq_false]
        intro q hq
        simp only [decide_eq_true_eq]
        intro e
        rw [List.map_append, List.nodup_append] at hd
        exact hd.2.2 q.1 (List.mem_map.2 ⟨q, hq, rfl⟩) p.1 (by simp) e
      rw [List.foldl_cons, store, hnot]
      simp only [Bool.false_eq_true, if_false]
      rw [ih (d ++ [p]) (by simpa using hd)]
      simp
  exact key kvs [] (by simpa using h)

mutual
theorem norm_distinct : ∀ v : J F, DistinctKeys v → norm v = v
  | .null, _ => by rw [norm]
  | .bool b, _ => by rw [norm]
  | .int z, _ => by rw [norm]
  | .flt f, _ => by rw [norm]
  | .str s, _ => by rw [norm]
  | .other, _ => by rw [norm]
  | .arr vs, h => by
    rw [DistinctKeys] at h
    rw [norm, normItems_distinct vs h]
  | .obj kvs, h => by
    rw [DistinctKeys] at h
    rw [norm, normFields_distinct kvs h.2, toDict_nodup h.1]

theorem normItems_distinct : ∀ vs : List (J F), DistinctKeysItems vs → normItems vs = vs
  | [], _ => by rw [normItems]
  | v :: vs, h => by
    rw [DistinctKeysItems] at h
    rw [normItems, norm_distinct v h.1, normItems_distinct vs h.2]

theorem normFields_distinct : ∀ kvs : List (List ℕ × J F), DistinctKeysFields kvs → normFields kvs = kvs
  | [], _ => by rw [normFields]
  | (k, v) :: kvs, h => by
    rw [DistinctKeysFields] at h
    rw [normFields, norm_distinct v h.1, normFields_distinct kvs h.2]
end

/-! ## Reading a rendered value -/

theorem ends_blank_cons {w : Text} {c : Char} {r : Text} (hw : Blank w) (hc : c ∈ [',', ']', '}']) : Ends (w ++ c :: r) := by
  right
  cases w with
  | nil => exact ⟨c, r, rfl, by simp only [List.mem_cons, List.not_mem_nil, or_false] at hc ⊢; tauto⟩
  | cons d w => exact ⟨d, w ++ c :: r, rfl, by have := hw d (by simp); simp only [List.mem_cons, List.not_mem_nil, or_false] at this ⊢; tauto⟩

/-- The first character of a rendered value. -/
theorem renders_head (fl : Floats F) : ∀ (v : J F) (s : Text), Writable fl v → Renders fl v s →
    ∃ c t, s = c :: t ∧ isWs c = false ∧ c ≠ ']'
  | .null, s, _, h => by rw [Renders] at h; exact ⟨_, _, h, by decide⟩
  | .bool b, s, _, h => by rw [Renders] at h; cases b <;> exact ⟨_, _, h, by decide⟩
  | .int z, s, _, h => by
    rw [Renders] at h
    obtain ⟨c, t, e, hc⟩ := h.numHead []
    rw [List.append_nil] at e
    exact ⟨c, t, e, (NumHead.facts hc).2.2.2.2.2.2.1, (NumHead.facts hc).2.2.2.2.2.2.2.1⟩
  | .flt f, s, hw, h => by
    rw [Renders] at h
    obtain ⟨c, t, e, hc⟩ := isFloatText_head h.1 []
    rw [List.append_nil] at e
    exact ⟨c, t, e, (NumHead.facts hc).2.2.2.2.2.2.1, (NumHead.facts hc).2.2.2.2.2.2.2.1⟩
  | .str t, s, _, h => by rw [Renders] at h; obtain ⟨body, _, h⟩ := h; exact ⟨_, _, h, by decide⟩
  | .arr [], s, _, h => by rw [Renders] at h; obtain ⟨w, _, h⟩ := h; exact ⟨_, _, h, by decide⟩
  | .arr (v :: vs), s, _, h => by rw [Renders] at h; obtain ⟨w, a, b, _, _, _, h⟩ := h; exact ⟨_, _, h, by decide⟩
  | .obj [], s, _, h => by rw [Renders] at h; obtain ⟨w, _, h⟩ := h; exact ⟨_, _, h, by decide⟩
  | .obj ((k, v) :: kvs), s, _, h => by rw [Renders] at h; obtain ⟨w, q, w1, w2, a, b, _, _, _, _, _, _, h⟩ := h; exact ⟨_, _, h, by decide⟩
  | .other, s, _, h => by rw [Renders] at h; exact h.elim

theorem rendersItems_ends (fl : Floats F) : ∀ (vs : List (J F)) (b r : Text), RendersItems fl vs b → Ends (b ++ r) ∧ 1 ≤ b.length
  | [], b, r, h => by
    rw [RendersItems] at h
    obtain ⟨w, hw, rfl⟩ := h
    exact ⟨by rw [List.append_assoc]; exact ends_blank_cons hw (by simp), by simp⟩
  | v :: vs, b, r, h => by
    rw [RendersItems] at h
    obtain ⟨w, w1, a, b', hw, _, _, _, rfl⟩ := h
    refine ⟨?_, by simp only [List.length_append, List.length_cons]; omega⟩
    simp only [List.append_assoc, List.cons_append]
    exact ends_blank_cons hw (by simp)

theorem rendersFields_ends (fl : Floats F) : ∀ (kvs : List (List ℕ × J F)) (b r : Text), RendersFields fl kvs b → Ends (b ++ r) ∧ 1 ≤ b.length
  | [], b, r, h => by
    rw [RendersFields] at h
    obtain ⟨w, hw, rfl⟩ := h
    exact ⟨by rw [List.append_assoc]; exact ends_blank_cons hw (by simp), by simp⟩
  | (k, v) :: vs, b, r, h => by
    rw [RendersFields] at h
    obtain ⟨w, w0, q, w1, w2, a, b', hw, _, _, _, _, _, _, rfl⟩ := h
    refine ⟨?_, by simp only [List.length_append, List.length_cons]; omega⟩
    simp only [List.append_assoc, List.cons_append]
    exact ends_blank_cons hw (by simp)

mutual
theorem scan_renders (fl : Floats F) : ∀ (v : J F) (s r : Text) (n : ℕ), Writable fl v → Renders fl v s → Ends r → s.length ≤ n →
    scan fl n (s ++ r) = some (norm v, r)
  | .null, s, r, n, _, h, _, hn => by
    rw [Renders] at h; subst h
    obtain ⟨n, rfl⟩ : ∃ m, n = m + 1 := ⟨n - 1, by simp at hn; omega⟩
    rw [norm]; rfl
  | .bool b, s, r, n, _, h, _, hn => by
    rw [Renders] at h; subst h
    obtain ⟨n, rfl⟩ : ∃ m, n = m + 1 := ⟨n - 1, by cases b <;> simp at hn <;> omega⟩
    rw [norm]; cases b <;> rfl
  | .int z, s, r, n, _, h, hr, hn => by
    rw [Renders] at h
    have hh := h.numHead []
    obtain ⟨n, rfl⟩ : ∃ m, n = m + 1 := ⟨n - 1, by
      obtain ⟨c, t, e, _⟩ := hh
      rw [List.append_nil] at e
      rw [e] at hn; simp at hn; omega⟩
    rw [scan_number fl (h.numHead r), scanNumber_int fl h hr, norm]
  | .flt f, s, r, n, hw, h, hr, hn => by
    rw [Renders] at h
    have hh := isFloatText_head h.1 []
    obtain ⟨n, rfl⟩ : ∃ m, n = m + 1 := ⟨n - 1, by
      obtain ⟨c, t, e, _⟩ := hh
      rw [List.append_nil] at e
      rw [e] at hn; simp at hn; omega⟩
    rw [scan_number fl (isFloatText_head h.1 r), scanNumber_float fl h.1 hr, h.2, norm]
  | .str t, s, r, n, hw, h, _, hn => by
    rw [Writable] at hw
    rw [Renders] at h
    have hl := h.length
    obtain ⟨body, hb, rfl⟩ := h
    obtain ⟨n, rfl⟩ : ∃ m, n = m + 1 := ⟨n - 1, by omega⟩
    rw [quoted_cons, scan, if_pos rfl, scanString_body t hw body r hb (n + 1) (by omega), norm]; rfl
  | .arr [], s, r, n, _, h, _, hn => by
    rw [Renders] at h
    obtain ⟨w, hw, rfl⟩ := h
    obtain ⟨n, rfl⟩ : ∃ m, n = m + 1 := ⟨n - 1, by simp at hn; omega⟩
    rw [show '[' :: w ++ [']'] ++ r = '[' :: (w ++ ']' :: r) by simp, scan, if_neg (by decide), if_neg (by decide), if_pos rfl,
      skipWs_blank_cons hw (by decide), norm, normItems]
    rfl
  | .arr (v :: vs), s, r, n, hwr, h, hr, hn => by
    rw [Writable, WritableItems] at hwr
    rw [Renders] at h
    obtain ⟨w, a, b, hw, ha, hb, rfl⟩ := h
    obtain ⟨n, rfl⟩ : ∃ m, n = m + 1 := ⟨n - 1, by simp at hn; omega⟩
    obtain ⟨c, t, ea, hc, hc'⟩ := renders_head fl v a hwr.1 ha
    have hi := scan_items fl v vs a b r n hwr.1 hwr.2 ha hb hr (by simp only [List.length_append, List.length_cons] at hn; omega)
    have hsk : skipWs (w ++ (a ++ (b ++ r))) = a ++ (b ++ r) := by
      rw [ea, List.cons_append, skipWs_blank_cons hw hc]
    rw [show '[' :: w ++ a ++ b ++ r = '[' :: (w ++ (a ++ (b ++ r))) by simp, scan, if_neg (by decide), if_neg (by decide), if_pos rfl, hsk]
    rw [norm, normItems]
    split
    · next heq => rw [ea, List.cons_append] at heq; simp only [List.cons.injEq] at heq; exact absurd heq.1 hc'
    · rw [hi]; rfl
  | .obj [], s, r, n, _, h, _, hn => by
    rw [Renders] at h
    obtain ⟨w, hw, rfl⟩ := h
    obtain ⟨n, rfl⟩ : ∃ m, n = m + 1 := ⟨n - 1, by simp at hn; omega⟩
    rw [show '{' :: w ++ ['}'] ++ r = '{' :: (w ++ '}' :: r) by simp, scan, if_neg (by decide), if_pos rfl,
      skipWs_blank_cons hw (by decide), norm, normFields]
    rfl
  | .obj ((k, v) :: kvs), s, r, n, hwr, h, hr, hn => by
    rw [Writable, WritableFields] at hwr
    rw [Renders] at h
    obtain ⟨w, q, w1, w2, a, b, hw, hq, hw1, hw2, ha, hb, rfl⟩ := h
    have hl := hq.length
    obtain ⟨body, hbody, rfl⟩ := hq
    obtain ⟨n, rfl⟩ : ∃ m, n = m + 1 := ⟨n - 1, by simp only [List.length_append, List.length_cons] at hn; omega⟩
    have hi := scan_fields fl k v kvs body w1 w2 a b r n hwr.1 hwr.2.1 hwr.2.2 hbody hw1 hw2 ha hb hr (by
      simp only [List.length_append, List.length_cons] at hn ⊢; omega)
    rw [show '{' :: w ++ ('"' :: body ++ ['"']) ++ w1 ++ ':' :: w2 ++ a ++ b ++ r =
        '{' :: (w ++ ('"' :: (body ++ '"' :: (w1 ++ ':' :: (w2 ++ (a ++ (b ++ r))))))) by simp,
      scan, if_neg (by decide), if_pos rfl, skipWs_blank_cons hw (by decide)]
    simp only
    rw [hi, norm, normFields]; rfl
  | .other, s, r, n, hw, _, _, _ => by rw [Writable] at hw; exact hw.elim
termination_by v => sizeOf v

theorem scan_items (fl : Floats F) : ∀ (v : J F) (vs : List (J F)) (a b r : Text) (n : ℕ), Writable fl v → WritableItems fl vs → Renders fl v a →
    RendersItems fl vs b → Ends r → a.length + b.length ≤ n → scanItems fl n (a ++ (b ++ r)) = some (norm v :: normItems vs, r)
  | v, [], a, b, r, n, hv, _, ha, hb, hr, hn => by
    have he := rendersItems_ends fl [] b r hb
    obtain ⟨n, rfl⟩ : ∃ m, n = m + 1 := ⟨n - 1, by omega⟩
    rw [scanItems, scan_renders fl v a (b ++ r) n hv ha he.1 (by omega)]
    rw [RendersItems] at hb
    obtain ⟨w, hw, rfl⟩ := hb
    rw [List.append_assoc]
    simp only [List.cons_append, List.nil_append]
    rw [skipWs_blank_cons hw (by decide), normItems]
    rfl
  | v, u :: vs, a, b, r, n, hv, hvs, ha, hb, hr, hn => by
    have he := rendersItems_ends fl (u :: vs) b r hb
    obtain ⟨n, rfl⟩ : ∃ m, n = m + 1 := ⟨n - 1, by omega⟩
    rw [scanItems, scan_renders fl v a (b ++ r) n hv ha he.1 (by omega)]
    rw [RendersItems] at hb
    obtain ⟨w, w1, a', b', hw, hw1, ha', hb', rfl⟩ := hb
    rw [WritableItems] at hvs
    obtain ⟨c, t, ea, hc, -⟩ := renders_head fl u a' hvs.1 ha'
    have hi := scan_items fl u vs a' b' r n hvs.1 hvs.2 ha' hb' hr (by simp only [List.length_append, List.length_cons] at hn; omega)
    have hsk : skipWs (w1 ++ (a' ++ (b' ++ r))) = a' ++ (b' ++ r) := by
      rw [ea, List.cons_append, skipWs_blank_cons hw1 hc]
    rw [show w ++ ',' :: w1 ++ a' ++ b' ++ r = w ++ ',' :: (w1 ++ (a' ++ (b' ++ r))) by simp]
    simp only
    rw [skipWs_blank_cons hw (by decide)]
    simp only
    rw [hsk, hi, normItems]; rfl
termination_by v vs => sizeOf v + sizeOf vs

theorem scan_fields (fl : Floats F) : ∀ (k : List ℕ) (v : J F) (kvs : List (List ℕ × J F)) (body w1 w2 a b r : Text) (n : ℕ), StringOk k → Writable fl v →
    WritableFields fl kvs → SpellsAll k body → Blank w1 → Blank w2 → Renders fl v a → RendersFields fl kvs b → Ends r →
    body.length + 2 + a.length + b.length ≤ n →
    scanFields fl n (body ++ '"' :: (w1 ++ ':' :: (w2 ++ (a ++ (b ++ r))))) = some ((k, norm v) :: normFields kvs, r)
  | k, v, [], body, w1, w2, a, b, r, n, hk, hv, _, hbody, hw1, hw2, ha, hb, hr, hn => by
    have he := rendersFields_ends fl [] b r hb
    have hl := hbody.length
    obtain ⟨n, rfl⟩ : ∃ m, n = m + 1 := ⟨n - 1, by omega⟩
    obtain ⟨c, t, ea, hc, -⟩ := renders_head fl v a hv ha
    have hsk : skipWs (w2 ++ (a ++ (b ++ r))) = a ++ (b ++ r) := by
      rw [ea, List.cons_append, skipWs_blank_cons hw2 hc]
    rw [scanFields, scanString_body k hk body _ hbody (n + 1) (by omega)]
    simp only
    rw [skipWs_blank_cons hw1 (by decide)]
    simp only
    rw [hsk, scan_renders fl v a (b ++ r) n hv ha he.1 (by omega)]
    rw [RendersFields] at hb
    obtain ⟨w, hw, rfl⟩ := hb
    rw [List.append_assoc]
    simp only [List.cons_append, List.nil_append]
    rw [skipWs_blank_cons hw (by decide), normFields]
    rfl
  | k, v, (k', v') :: kvs, body, w1, w2, a, b, r, n, hk, hv, hvs, hbody, hw1, hw2, ha, hb, hr, hn => by
    have he := rendersFields_ends fl ((k', v') :: kvs) b r hb
    have hl := hbody.length
    obtain ⟨n, rfl⟩ : ∃ m, n = m + 1 := ⟨n - 1, by omega⟩
    obtain ⟨c, t, ea, hc, -⟩ := renders_head fl v a hv ha
    have hsk : skipWs (w2 ++ (a ++ (b ++ r))) = a ++ (b ++ r) := by
      rw [ea, List.cons_append, skipWs_blank_cons hw2 hc]
    rw [scanFields, scanString_body k hk body _ hbody (n + 1) (by omega)]
    simp only
    rw [skipWs_blank_cons hw1 (by decide)]
    simp only
    rw [hsk, scan_renders fl v a (b ++ r) n hv ha he.1 (by omega)]
    rw [RendersFields] at hb
    obtain ⟨w, w0, q, w1', w2', a', b', hw, hw0, ⟨body', hbody', rfl⟩, hw1', hw2', ha', hb', rfl⟩ := hb
    rw [WritableFields] at hvs
    have hi := scan_fields fl k' v' kvs body' w1' w2' a' b' r n hvs.1 hvs.2.1 hvs.2.2 hbody' hw1' hw2' ha' hb' hr (by
      simp only [List.length_append, List.length_cons, List.length_nil] at hn; omega)
    rw [show w ++ ',' :: w0 ++ ('"' :: body' ++ ['"']) ++ w1' ++ ':' :: w2' ++ a' ++ b' ++ r =
      w ++ ',' :: (w0 ++ ('"' :: (body' ++ '"' :: (w1' ++ ':' :: (w2' ++ (a' ++ (b' ++ r))))))) by simp]
    simp only
    rw [skipWs_blank_cons hw (by decide)]
    simp only
    rw [skipWs_blank_cons hw0 (by decide)]
    simp only
    rw [hi, normFields]; rfl
termination_by _ v kvs => sizeOf v + sizeOf kvs
end

/-! ## What is written renders the value -/

@[simp] theorem then_true (a : Text) (b : Out) : Out.then (a, true) b = (a ++ b.1, b.2) := rfl

theorem then_of {a b : Out} (h : a.2 = true) : Out.then a b = (a.1 ++ b.1, b.2) := by simp [Out.then, h]

mutual
theorem encode_renders (fl : Floats F) : ∀ (v : J F) (l : ℕ), Writable fl v → (encode fl l v).2 = true ∧ Renders fl v (encode fl l v).1
  | .null, l, _ => by rw [encode, Renders]; simp
  | .bool true, l, _ => by rw [encode, Renders]; simp
  | .bool false, l, _ => by rw [encode, Renders]; simp
  | .int z, l, _ => by rw [encode, Renders]; exact ⟨rfl, isInt_intText z⟩
  | .flt f, l, h => by rw [Writable] at h; rw [encode, Renders]; exact ⟨rfl, h⟩
  | .str t, l, h => by rw [Writable] at h; rw [encode, Renders]; exact ⟨rfl, quoted_quote h⟩
  | .arr [], l, _ => by rw [encode, Renders]; exact ⟨rfl, [], by simp [Blank], rfl⟩
  | .arr (v :: vs), l, h => by
    rw [Writable, WritableItems] at h
    obtain ⟨a1, a2⟩ := encode_renders fl v (l + 1) h.1
    obtain ⟨b1, b2⟩ := encodeItems_renders fl vs l h.2
    rw [encode, Renders, then_of a1, then_true]
    exact ⟨b1, newline (l + 1), _, _, blank_newline _, a2, b2, by simp⟩
  | .obj [], l, _ => by rw [encode, Renders]; exact ⟨rfl, [], by simp [Blank], rfl⟩
  | .obj ((k, v) :: kvs), l, h => by
    rw [Writable, WritableFields] at h
    obtain ⟨a1, a2⟩ := encode_renders fl v (l + 1) h.2.1
    obtain ⟨b1, b2⟩ := encodeFields_renders fl kvs l h.2.2
    rw [encode, Renders, then_of a1, then_true]
    exact ⟨b1, newline (l + 1), _, [], [' '], _, _, blank_newline _, quoted_quote h.1, by simp [Blank], by simp [Blank], a2, b2, by simp⟩
  | .other, l, h => by rw [Writable] at h; exact h.elim

theorem encodeItems_renders (fl : Floats F) : ∀ (vs : List (J F)) (l : ℕ), WritableItems fl vs →
    (encodeItems fl l vs).2 = true ∧ RendersItems fl vs (encodeItems fl l vs).1
  | [], l, _ => by rw [encodeItems, RendersItems]; exact ⟨rfl, _, blank_newline l, rfl⟩
  | v :: vs, l, h => by
    rw [WritableItems] at h
    obtain ⟨a1, a2⟩ := encode_renders fl v (l + 1) h.1
    obtain ⟨b1, b2⟩ := encodeItems_renders fl vs l h.2
    rw [encodeItems, RendersItems, then_of a1, then_true]
    exact ⟨b1, [], newline (l + 1), _, _, by simp [Blank], blank_newline _, a2, b2, by simp⟩

theorem encodeFields_renders (fl : Floats F) : ∀ (kvs : List (List ℕ × J F)) (l : ℕ), WritableFields fl kvs →
    (encodeFields fl l kvs).2 = true ∧ RendersFields fl kvs (encodeFields fl l kvs).1
  | [], l, _ => by rw [encodeFields, RendersFields]; exact ⟨rfl, _, blank_newline l, rfl⟩
  | (k, v) :: kvs, l, h => by
    rw [WritableFields] at h
    obtain ⟨a1, a2⟩ := encode_renders fl v (l + 1) h.2.1
    obtain ⟨b1, b2⟩ := encodeFields_renders fl kvs l h.2.2
    rw [encodeFields, RendersFields, then_of a1, then_true]
    exact ⟨b1, [], newline (l + 1), _, [], [' '], _, _, by simp [Blank], blank_newline _, quoted_quote h.1, by simp [Blank], by simp [Blank], a2, b2, by simp⟩
end

/-! ## What is written before an error -/

theorem then_false (a b : Out) : (Out.then a b).2 = false ↔ a.2 = false ∨ b.2 = false := by
  unfold Out.then
  cases h : a.2 <;> simp [h]

mutual
theorem encode_foreign (fl : Floats F) : ∀ (v : J F) (l : ℕ), (encode fl l v).2 = false ↔ Foreign v
  | .null, l => by simp [encode, Foreign]
  | .bool true, l => by simp [encode, Foreign]
  | .bool false, l => by simp [encode, Foreign]
  | .int z, l => by simp [encode, Foreign]
  | .flt f, l => by simp [encode, Foreign]
  | .str t, l => by simp [encode, Foreign]
  | .arr [], l => by simp [encode, Foreign, ForeignItems]
  | .arr (v :: vs), l => by
    rw [encode, Foreign, ForeignItems, then_false, then_false, encode_foreign fl v, encodeItems_foreign fl vs]
    simp
  | .obj [], l => by simp [encode, Foreign, ForeignFields]
  | .obj ((k, v) :: kvs), l => by
    rw [encode, Foreign, ForeignFields, then_false, then_false, encode_foreign fl v, encodeFields_foreign fl kvs]
    simp
  | .other, l => by simp [encode, Foreign]

theorem encodeItems_foreign (fl : Floats F) : ∀ (vs : List (J F)) (l : ℕ), (encodeItems fl l vs).2 = false ↔ ForeignItems vs
  | [], l => by simp [encodeItems, ForeignItems]
  | v :: vs, l => by
    rw [encodeItems, ForeignItems, then_false, then_false, encode_foreign fl v, encodeItems_foreign fl vs]
    simp

theorem encodeFields_foreign (fl : Floats F) : ∀ (kvs : List (List ℕ × J F)) (l : ℕ), (encodeFields fl l kvs).2 = false ↔ ForeignFields kvs
  | [], l => by simp [encodeFields, ForeignFields]
  | (k, v) :: kvs, l => by
    rw [encodeFields, ForeignFields, then_false, then_false, encode_foreign fl v, encodeFields_foreign fl kvs]
    simp
end

/-- One writing is the beginning of another one, and all of it unless it ended with an error. -/
def Begins (a b : Out) : Prop := a.1 <+: b.1 ∧ (a.2 = true → a = b)

theorem Begins.refl (a : Out) : Begins a a := ⟨List.prefix_refl _, fun _ => rfl⟩

theorem Begins.then {a a' b b' : Out} (ha : Begins a a') (hb : Begins b b') : Begins (Out.then a b) (Out.then a' b') := by
  cases h : a.2 with
  | true =>
    obtain rfl := ha.2 h
    rw [then_of h, then_of h]
    refine ⟨(List.prefix_append_right_inj _).2 hb.1, fun h2 => ?_⟩
    rw [hb.2 h2]
  | false =>
    have e : Out.then a b = a := by simp [Out.then, h]
    rw [e]
    refine ⟨ha.1.trans ?_, fun h2 => by simp [h] at h2⟩
    unfold Out.then
    split_ifs
    · exact List.prefix_append _ _
    · exact List.prefix_refl _

mutual
theorem encode_fill (fl : Floats F) (w : J F) : ∀ (v : J F) (l : ℕ), Begins (encode fl l v) (encode fl l (fill w v))
  | .null, l => by rw [fill] <;> first | exact Begins.refl _ | simp
  | .bool b, l => by rw [fill] <;> first | exact Begins.refl _ | simp
  | .int z, l => by rw [fill] <;> first | exact Begins.refl _ | simp
  | .flt f, l => by rw [fill] <;> first | exact Begins.refl _ | simp
  | .str t, l => by rw [fill] <;> first | exact Begins.refl _ | simp
  | .arr [], l => by rw [fill, fillItems]; exact Begins.refl _
  | .arr (v :: vs), l => by
    rw [fill, fillItems, encode, encode]
    exact (Begins.refl _).then ((encode_fill fl w v _).then (encodeItems_fill fl w vs _))
  | .obj [], l => by rw [fill, fillFields]; exact Begins.refl _
  | .obj ((k, v) :: kvs), l => by
    rw [fill, fillFields, encode, encode]
    exact (Begins.refl _).then ((encode_fill fl w v _).then (encodeFields_fill fl w kvs _))
  | .other, l => by rw [fill, encode]; exact ⟨List.nil_prefix, by simp⟩

theorem encodeItems_fill (fl : Floats F) (w : J F) : ∀ (vs : List (J F)) (l : ℕ), Begins (encodeItems fl l vs) (encodeItems fl l (fillItems w vs))
  | [], l => by rw [fillItems]; exact Begins.refl _
  | v :: vs, l => by
    rw [fillItems, encodeItems, encodeItems]
    exact (Begins.refl _).then ((encode_fill fl w v _).then (encodeItems_fill fl w vs _))

theorem encodeFields_fill (fl : Floats F) (w : J F) : ∀ (kvs : List (List ℕ × J F)) (l : ℕ),
    Begins (encodeFields fl l kvs) (encodeFields fl l (fillFields w kvs))
  | [], l => by rw [fillFields]; exact Begins.refl _
  | (k, v) :: kvs, l => by
    rw [fillFields, encodeFields, encodeFields]
    exact (Begins.refl _).then ((encode_fill fl w v _).then (encodeFields_fill fl w kvs _))
end

/-! ## Empty lines -/

/-- `Gaps s t`: `t` is `s` with some line ends doubled. -/
inductive Gaps : Text → Text → Prop
  | nil : Gaps [] []
  | cons (c : Char) {s t : Text} : Gaps s t → Gaps (c :: s) (c :: t)
  | gap {s t : Text} : Gaps s t → Gaps ('\n' :: s) ('\n' :: '\n' :: t)

theorem Gaps.refl : ∀ s, Gaps s s
  | [] => .nil
  | c :: s => .cons c (Gaps.refl s)

theorem Gaps.append {a a' b b' : Text} (h1 : Gaps a a') (h2 : Gaps b b') : Gaps (a ++ b) (a' ++ b') := by
  induction h1 with
  | nil => exact h2
  | cons c _ ih => exact .cons c ih
  | gap _ ih => exact .gap ih

theorem Gaps.split {a b t : Text} (h : Gaps (a ++ b) t) : ∃ a' b', t = a' ++ b' ∧ Gaps a a' ∧ Gaps b b' := by
  induction a generalizing t with
  | nil => exact ⟨[], t, rfl, .nil, h⟩
  | cons c a ih =>
    rw [List.cons_append] at h
    cases h with
    | cons _ h => obtain ⟨a', b', rfl, h1, h2⟩ := ih h; exact ⟨c :: a', b', rfl, .cons c h1, h2⟩
    | gap h => obtain ⟨a', b', rfl, h1, h2⟩ := ih h; exact ⟨'\n' :: '\n' :: a', b', rfl, .gap h1, h2⟩

theorem Gaps.token {a t : Text} (h : Gaps a t) (ha : '\n' ∉ a) : t = a := by
  induction h with
  | nil => rfl
  | cons c _ ih => rw [ih (fun h => ha (by simp [h]))]
  | gap _ _ => simp at ha

theorem Gaps.blank {a t : Text} (h : Gaps a t) (ha : Blank a) : Blank t := by
  induction h with
  | nil => exact ha
  | cons c _ ih =>
    intro d hd
    rcases List.mem_cons.1 hd with rfl | hd
    · exact ha d (by simp)
    · exact ih (fun x hx => ha x (by simp [hx])) d hd
  | gap _ ih =>
    intro d hd
    rcases List.mem_cons.1 hd with rfl | hd
    · simp
    rcases List.mem_cons.1 hd with rfl | hd
    · simp
    · exact ih (fun x hx => ha x (by simp [hx])) d hd

theorem Gaps.tail {c : Char} (hc : c ≠ '\n') {s t : Text} (h : Gaps (c :: s) t) : ∃ t', t = c :: t' ∧ Gaps s t' := by
  cases h with
  | cons _ h => exact ⟨_, rfl, h⟩
  | gap h => exact absurd rfl hc

theorem digits_noNl {ds : Text} (h : Digits ds) : '\n' ∉ ds := fun hm => absurd (h _ hm) (by decide)

theorem int_noNl {int : Text} (h : int = ['0'] ∨ ∃ c ds, int = c :: ds ∧ c ≠ '0' ∧ Digits (c :: ds)) : '\n' ∉ int := by
  rcases h with rfl | ⟨c, ds, rfl, _, hd⟩
  · decide
  · exact digits_noNl hd

theorem isInt_noNl {z : ℤ} {t : Text} (h : IsInt z t) : '\n' ∉ t := by
  obtain ⟨sign, int, rfl, hs, hi⟩ := h.split
  rw [List.mem_append]
  rintro (h | h)
  · rcases hs with rfl | rfl <;> exact absurd h (by decide)
  · exact int_noNl hi h

theorem float_noNl {t : Text} (h : IsFloatText t) : '\n' ∉ t := by
  rcases h with rfl | rfl | rfl | ⟨sign, int, frac, exp, rfl, hs, hi, hf, he, -⟩
  · decide
  · decide
  · decide
  · simp only [List.mem_append]
    rintro (((h | h) | h) | h)
    · rcases hs with rfl | rfl <;> exact absurd h (by decide)
    · exact int_noNl hi h
    · rcases hf with rfl | ⟨ds, rfl, _, hd⟩
      · simp at h
      · rcases List.mem_cons.1 h with h | h
        · exact absurd h (by decide)
        · exact digits_noNl hd h
    · rcases he with rfl | ⟨e, s, ds, rfl, he, hs, _, hd⟩
      · simp at h
      · simp only [List.cons_append, List.mem_cons, List.mem_append] at h
        rcases h with h | h | h
        · rcases he with rfl | rfl <;> exact absurd h (by decide)
        · rcases hs with rfl | rfl | rfl <;> exact absurd h (by decide)
        · exact digits_noNl hd h

mutual
theorem renders_gaps (fl : Floats F) : ∀ (v : J F) (s t : Text), Writable fl v → Renders fl v s → Gaps s t → Renders fl v t
  | .null, s, t, _, h, g => by rw [Renders] at h ⊢; subst h; exact g.token (by decide)
  | .bool b, s, t, _, h, g => by rw [Renders] at h ⊢; subst h; exact g.token (by cases b <;> decide)
  | .int z, s, t, _, h, g => by rw [Renders] at h ⊢; rwa [g.token (isInt_noNl h)]
  | .flt f, s, t, _, h, g => by rw [Renders] at h ⊢; rwa [g.token (float_noNl h.1)]
  | .str u, s, t, _, h, g => by rw [Renders] at h ⊢; rwa [g.token h.noNl]
  | .arr [], s, t, _, h, g => by
    rw [Renders] at h ⊢
    obtain ⟨w, hw, rfl⟩ := h
    rw [List.cons_append] at g
    obtain ⟨t, rfl, gt⟩ := g.tail (by decide)
    obtain ⟨a, b, rfl, g1, g2⟩ := gt.split
    exact ⟨a, g1.blank hw, by rw [g2.token (by decide)]; rfl⟩
  | .arr (v :: vs), s, t, hwr, h, g => by
    rw [Writable, WritableItems] at hwr
    rw [Renders] at h ⊢
    obtain ⟨w, a, b, hw, ha, hb, rfl⟩ := h
    simp only [List.cons_append, List.append_assoc] at g
    obtain ⟨t, rfl, gt⟩ := g.tail (by decide)
    obtain ⟨w', t, rfl, g1, g⟩ := gt.split
    obtain ⟨a', b', rfl, g2, g3⟩ := g.split
    exact ⟨w', a', b', g1.blank hw, renders_gaps fl v a a' hwr.1 ha g2, rendersItems_gaps fl vs b b' hwr.2 hb g3, by simp⟩
  | .obj [], s, t, _, h, g => by
    rw [Renders] at h ⊢
    obtain ⟨w, hw, rfl⟩ := h
    rw [List.cons_append] at g
    obtain ⟨t, rfl, gt⟩ := g.tail (by decide)
    obtain ⟨a, b, rfl, g1, g2⟩ := gt.split
    exact ⟨a, g1.blank hw, by rw [g2.token (by decide)]; rfl⟩
  | .obj ((k, v) :: kvs), s, t, hwr, h, g => by
    rw [Writable, WritableFields] at hwr
    rw [Renders] at h ⊢
    obtain ⟨w, k', w1, w2, a, b, hw, hq, hw1, hw2, ha, hb, rfl⟩ := h
    simp only [List.cons_append, List.append_assoc] at g
    obtain ⟨t, rfl, gt⟩ := g.tail (by decide)
    obtain ⟨w', t, rfl, g1, g⟩ := gt.split
    obtain ⟨q, t, rfl, g2, g⟩ := g.split
    obtain ⟨w1', t, rfl, g3, g⟩ := g.split
    obtain ⟨t, rfl, gt2⟩ := g.tail (by decide)
    obtain ⟨w2', t, rfl, g4, g⟩ := gt2.split
    obtain ⟨a', b', rfl, g5, g6⟩ := g.split
    rw [g2.token hq.noNl]
    exact ⟨w', k', w1', w2', a', b', g1.blank hw, hq, g3.blank hw1, g4.blank hw2, renders_gaps fl v a a' hwr.2.1 ha g5,
      rendersFields_gaps fl kvs b b' hwr.2.2 hb g6, by simp⟩
  | .other, s, t, _, h, _ => by rw [Renders] at h; exact h.elim

theorem rendersItems_gaps (fl : Floats F) : ∀ (vs : List (J F)) (s t : Text), WritableItems fl vs → RendersItems fl vs s → Gaps s t → RendersItems fl vs t
  | [], s, t, _, h, g => by
    rw [RendersItems] at h ⊢
    obtain ⟨w, hw, rfl⟩ := h
    obtain ⟨a, b, rfl, g1, g2⟩ := g.split
    exact ⟨a, g1.blank hw, by rw [g2.token (by decide)]⟩
  | v :: vs, s, t, hwr, h, g => by
    rw [WritableItems] at hwr
    rw [RendersItems] at h ⊢
    obtain ⟨w, w1, a, b, hw, hw1, ha, hb, rfl⟩ := h
    simp only [List.cons_append, List.append_assoc] at g
    obtain ⟨w', t, rfl, g1, g⟩ := g.split
    obtain ⟨t, rfl, gt⟩ := g.tail (by decide)
    obtain ⟨w1', t, rfl, g2, g⟩ := gt.split
    obtain ⟨a', b', rfl, g3, g4⟩ := g.split
    exact ⟨w', w1', a', b', g1.blank hw, g2.blank hw1, renders_gaps fl v a a' hwr.1 ha g3, rendersItems_gaps fl vs b b' hwr.2 hb g4, by simp⟩

theorem rendersFields_gaps (fl : Floats F) : ∀ (kvs : List (List ℕ × J F)) (s t : Text), WritableFields fl kvs → RendersFields fl kvs s → Gaps s t →
    RendersFields fl kvs t
  | [], s, t, _, h, g => by
    rw [RendersFields] at h ⊢
    obtain ⟨w, hw, rfl⟩ := h
    obtain ⟨a, b, rfl, g1, g2⟩ := g.split
    exact ⟨a, g1.blank hw, by rw [g2.token (by decide)]⟩
  | (k, v) :: kvs, s, t, hwr, h, g => by
    rw [WritableFields] at hwr
    rw [RendersFields] at h ⊢
    obtain ⟨w, w0, k', w1, w2, a, b, hw, hw0, hq, hw1, hw2, ha, hb, rfl⟩ := h
    simp only [List.cons_append, List.append_assoc] at g
    obtain ⟨w', t, rfl, g1, g⟩ := g.split
    obtain ⟨t, rfl, gt⟩ := g.tail (by decide)
    obtain ⟨w0', t, rfl, g0, g⟩ := gt.split
    obtain ⟨q, t, rfl, g2, g⟩ := g.split
    obtain ⟨w1', t, rfl, g3, g⟩ := g.split
    obtain ⟨t, rfl, gt2⟩ := g.tail (by decide)
    obtain ⟨w2', t, rfl, g4, g⟩ := gt2.split
    obtain ⟨a', b', rfl, g5, g6⟩ := g.split
    rw [g2.token hq.noNl]
    exact ⟨w', w0', k', w1', w2', a', b', g1.blank hw, g0.blank hw0, hq, g3.blank hw1, g4.blank hw2, renders_gaps fl v a a' hwr.2.1 ha g5,
      rendersFields_gaps fl kvs b b' hwr.2.2 hb g6, by simp⟩
end

/-! ## Lines -/

theorem lines_go (s : Text) : ∃ l ls, lines.go s = l :: ls ∧ s = l ++ ls.flatMap ('\n' :: ·) := by
  induction s with
  | nil => exact ⟨[], [], rfl, rfl⟩
  | cons c s ih =>
    obtain ⟨l, ls, e, es⟩ := ih
    rw [lines.go]
    by_cases hc : c = '\n'
    · rw [if_pos hc, e]
      exact ⟨[], l :: ls, rfl, by rw [hc, es]; simp⟩
    · rw [if_neg hc, e]
      exact ⟨c :: l, ls, rfl, by rw [es]; rfl⟩

theorem intercalate_cons (x : Text) (xs : List Text) : List.intercalate ['\n'] (x :: xs) = x ++ xs.flatMap ('\n' :: ·) := by
  induction xs generalizing x with
  | nil => simp [List.intercalate]
  | cons y ys ih =>
    have := ih y
    simp only [List.intercalate, List.intersperse_cons_cons, List.flatten_cons, List.flatMap_cons] at this ⊢
    rw [this]; simp

/-- Empty lines are inserted only at line ends, or before the first line. -/
theorem withGaps_gaps (headers : List String) (s : Text) : ∃ pre t, withGaps headers s = pre ++ t ∧ Blank pre ∧ Gaps s t := by
  cases s with
  | nil => exact ⟨[], [], rfl, by simp [Blank], .nil⟩
  | cons c s =>
    obtain ⟨l, ls, e, es⟩ := lines_go (c :: s)
    have hl : lines (c :: s) = l :: ls := e
    unfold withGaps
    rw [hl, es]
    have hrest : ∀ ls : List Text, Gaps (ls.flatMap ('\n' :: ·)) ((ls.flatMap fun l =>
        if headers.any fun h => occurs ('"' :: h.toList ++ ['"']) l then [[], l] else [l]).flatMap ('\n' :: ·)) := by
      intro ls
      induction ls with
      | nil => exact .nil
      | cons l ls ih =>
        rw [List.flatMap_cons, List.flatMap_cons, List.flatMap_append]
        refine Gaps.append ?_ ih
        split_ifs
        · simpa using Gaps.gap (Gaps.refl l)
        · simpa using Gaps.cons '\n' (Gaps.refl l)
    rw [List.flatMap_cons]
    split_ifs
    · refine ⟨['\n'], _, ?_, by simp [Blank], (Gaps.refl l).append (hrest ls)⟩
      rw [List.cons_append, intercalate_cons]; simp
    · refine ⟨[], _, ?_, by simp [Blank], (Gaps.refl l).append (hrest ls)⟩
      rw [List.cons_append, intercalate_cons]; simp

end GW.Json
