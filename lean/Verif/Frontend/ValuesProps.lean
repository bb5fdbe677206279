import Verif.Frontend.Values
/-!
# C71: primitive values are shown exactly
-/
namespace Verif.Frontend

open Verif.Value

/-! ## What a text says -/

/-- The number that a list of digits denotes. -/
def numberOf (s : Units) : Nat := s.foldl (fun a d => a * 10 + (d - 48)) 0

/-- The integer that a text denotes: digits, possibly after a minus sign. -/
def integerOf : Units → Int
  | 45 :: r => -(numberOf r : Int)
  | s => numberOf s

/-- The UTF-16 encoding of a character. -/
def utf16 (c : Char) : Units :=
  if c.toNat < 0x10000 then [c.toNat]
  else [0xD800 + (c.toNat - 0x10000) / 0x400, 0xDC00 + (c.toNat - 0x10000) % 0x400]

/-- The UTF-8 encoding of a character. -/
def utf8 (c : Char) : List Nat :=
  let n := c.toNat
  if n < 0x80 then [n]
  else if n < 0x800 then [0xC0 + n / 0x40, 0x80 + n % 0x40]
  else if n < 0x10000 then [0xE0 + n / 0x1000, 0x80 + n / 0x40 % 0x40, 0x80 + n % 0x40]
  else [0xF0 + n / 0x40000, 0x80 + n / 0x1000 % 0x40, 0x80 + n / 0x40 % 0x40, 0x80 + n % 0x40]

theorem digitOf_toNat (n : Nat) : (digitOf n).toNat = 48 + n % 10 := by
  unfold digitOf
  have h : n % 10 < 10 := Nat.mod_lt _ (by decide)
  have hall : ∀ k < 10, (Char.ofNat (48 + k)).toNat = 48 + k := by decide
  exact hall _ h

theorem numberOf_append (s : Units) (d : Nat) : numberOf (s ++ [d]) = numberOf s * 10 + (d - 48) := by
  simp [numberOf]

theorem numberOf_digits (n : Nat) : numberOf (digits n) = n := by
  induction n using decimal.induct with
  | case1 n h =>
    rw [digits, decimal, dif_pos h, List.map_cons, List.map_nil, digitOf_toNat]
    simp only [numberOf, List.foldl_cons, List.foldl_nil]
    omega
  | case2 n h ih =>
    rw [digits, decimal, dif_neg h, List.map_append, List.map_cons, List.map_nil, digitOf_toNat, numberOf_append]
    rw [show (decimal (n / 10)).map Char.toNat = digits (n / 10) from rfl, ih]
    omega

theorem digits_ge (n : Nat) : ∀ d ∈ digits n, 48 ≤ d := by
  induction n using decimal.induct with
  | case1 n h =>
    rw [digits, decimal, dif_pos h, List.map_cons, List.map_nil, digitOf_toNat]
    intro d hd
    rw [List.mem_singleton] at hd
    omega
  | case2 n h ih =>
    rw [digits, decimal, dif_neg h, List.map_append, List.map_cons, List.map_nil, digitOf_toNat]
    intro d hd
    rw [List.mem_append, List.mem_singleton] at hd
    rcases hd with hd | hd
    · exact ih d hd
    · omega

theorem integerOf_digits (n : Nat) : integerOf (digits n) = n := by
  have h := digits_ge n
  unfold integerOf
  split
  · rename_i r heq
    have := h 45 (by rw [heq]; exact List.mem_cons_self)
    omega
  · rw [numberOf_digits]

theorem round53_small {n : Nat} (h : n ≤ 2 ^ 53) : round53 n = n := by
  rcases Nat.lt_or_eq_of_le h with h | h
  · rw [round53, if_pos h]
  · subst h
    decide +kernel

theorem natText_small (js : Js) {n : Nat} (h : n ≤ 2 ^ 53) : natText js (round53 n) = digits n := by
  rw [round53_small h, natText, if_pos h]

/-- C71 (partial: up to 2^53): the text shown for an unsigned integer denotes the integer. -/
theorem C71_unsigned_partial (js : Js) (w n : Nat) (h : n ≤ 2 ^ 53) :
    ∃ t, primText js (readScalar (.uint w n)) = some t ∧ integerOf t = n := by
  have : asU64 n = n := Nat.mod_eq_of_lt (by omega)
  refine ⟨digits n, ?_, integerOf_digits n⟩
  simp only [readScalar, this, primText, natText_small js h]

/-- C71 (partial: up to 2^53): the text shown for a signed integer denotes the integer. -/
theorem C71_signed_partial (js : Js) (w : Nat) (i : Int) (h : i.natAbs ≤ 2 ^ 53) :
    ∃ t, primText js (readScalar (.int w i)) = some t ∧ integerOf t = i := by
  have : asI64 i = i := by
    unfold asI64
    omega
  simp only [readScalar, this, primText, intText, natText_small js h]
  split
  · refine ⟨_, rfl, ?_⟩
    show -(numberOf (digits i.natAbs) : Int) = i
    rw [numberOf_digits]
    omega
  · refine ⟨_, rfl, ?_⟩
    rw [integerOf_digits]
    omega

/-- The letters of a text. -/
def lettersOf (cs : List Char) : Units := cs.map Char.toNat

/-- C71: truth values are shown as themselves. -/
theorem C71_bool (js : Js) :
    primText js (readScalar (.bool true)) = some (lettersOf ['t', 'r', 'u', 'e']) ∧
      primText js (readScalar (.bool false)) = some (lettersOf ['f', 'a', 'l', 's', 'e']) := ⟨rfl, rfl⟩

/-- C71: a character other than the space is shown as itself exactly when it is in the basic plane. -/
theorem C71_char (js : Js) (c : Char) (h : c ≠ ' ') :
    primText js (readScalar (.char c)) = some (utf16 c) ↔ c.toNat < 0x10000 := by
  have hc : c.toNat ≠ 32 := fun e => h (by
    have : Char.ofNat c.toNat = Char.ofNat 32 := by rw [e]
    rw [Char.ofNat_toNat] at this
    exact this)
  have ht : readScalar (.char c) = .char c.toNat := rfl
  rw [ht]
  simp only [primText, charText, utf16]
  constructor
  · intro he
    apply Classical.byContradiction
    intro hn
    rw [if_neg hn] at he
    split at he <;> simp at he
  · intro hlt
    have hm : c.toNat % 2 ^ 16 = c.toNat := Nat.mod_eq_of_lt hlt
    rw [hm, if_neg hc, if_pos hlt]

/-- C71: the space is shown as a no-break space. -/
theorem C71_space (js : Js) : primText js (readScalar (.char ' ')) = some [160] := rfl

/-! ## Strings -/

/-- The text with every space replaced by a no-break space. -/
def nbsp (s : Units) : Units := s.map (fun u => if u = 32 then 160 else u)

theorem stringText_eq (js : Js) (bs : List Nat) : stringText js bs = some (bs.map charText) := by
  unfold stringText
  induction bs with
  | nil => rfl
  | cons b bs ih => rw [List.mapM_cons, ih]; rfl

theorem charText_length (n : Nat) : (charText n).length = 1 := by
  unfold charText
  split <;> rfl

theorem flatten_charText_length (bs : List Nat) : (bs.map charText).flatten.length = bs.length := by
  induction bs with
  | nil => rfl
  | cons b bs ih => simp only [List.map_cons, List.flatten_cons, List.length_append, charText_length, List.length_cons, ih]; omega

theorem utf16_le_utf8 (c : Char) : (utf16 c).length ≤ (utf8 c).length := by
  unfold utf16 utf8
  dsimp only
  split <;> split <;> (try split) <;> (try split) <;> simp_all <;> omega

theorem utf16_lt_utf8 {c : Char} (h : 128 ≤ c.toNat) : (utf16 c).length < (utf8 c).length := by
  unfold utf16 utf8
  dsimp only
  rw [if_neg (by omega : ¬ c.toNat < 0x80)]
  split <;> split <;> (try split) <;> simp_all <;> omega

theorem flatMap_le (s : List Char) : (s.flatMap utf16).length ≤ (s.flatMap utf8).length := by
  induction s with
  | nil => exact Nat.le_refl _
  | cons c s ih =>
    have := utf16_le_utf8 c
    simp only [List.flatMap_cons, List.length_append]
    omega

theorem flatMap_lt {s : List Char} {c : Char} (hc : c ∈ s) (h : 128 ≤ c.toNat) :
    (s.flatMap utf16).length < (s.flatMap utf8).length := by
  induction s with
  | nil => cases hc
  | cons d s ih =>
    simp only [List.flatMap_cons, List.length_append]
    rcases List.mem_cons.mp hc with e | hc
    · subst e
      have := utf16_lt_utf8 h
      have := flatMap_le s
      omega
    · have := ih hc
      have := utf16_le_utf8 d
      omega

theorem ascii_shown {s : List Char} (h : ∀ c ∈ s, c.toNat < 128) :
    ((s.flatMap utf8).map charText).flatten = nbsp (s.flatMap utf16) := by
  induction s with
  | nil => rfl
  | cons c s ih =>
    have hc := h c List.mem_cons_self
    have h8 : utf8 c = [c.toNat] := by unfold utf8; dsimp only; rw [if_pos (by omega)]
    have h16 : utf16 c = [c.toNat] := by unfold utf16; rw [if_pos (by omega)]
    have ht : charText c.toNat = [if c.toNat = 32 then 160 else c.toNat] := by
      unfold charText
      rw [Nat.mod_eq_of_lt (by omega)]
      split <;> rfl
    rw [List.flatMap_cons, List.flatMap_cons, h8, h16]
    simp only [List.cons_append, List.nil_append, List.map_cons, List.flatten_cons, ht, nbsp]
    rw [ih (fun d hd => h d (List.mem_cons_of_mem _ hd))]
    rfl

/-- C71: the bytes of a string, shown one after the other, spell the string (with no-break spaces) exactly when the
string is plain ASCII. -/
theorem C71_string (js : Js) (s : List Char) :
    (stringText js (s.flatMap utf8)).map List.flatten = some (nbsp (s.flatMap utf16)) ↔ ∀ c ∈ s, c.toNat < 128 := by
  rw [stringText_eq, Option.map_some]
  constructor
  · intro he c hc
    apply Classical.byContradiction
    intro hn
    have hl := congrArg List.length (Option.some.inj he)
    rw [flatten_charText_length, nbsp, List.length_map] at hl
    have := flatMap_lt hc (by omega)
    omega
  · intro h
    rw [ascii_shown h]

/-! ## Where values are not shown exactly -/

/-- C71 fails: a 128-bit integer loses its upper half. -/
theorem C71_wide (js : Js) (w n : Nat) : primText js (readScalar (.uint w (n + 2 ^ 64))) = primText js (readScalar (.uint w n)) := by
  have : asU64 (n + 2 ^ 64) = asU64 n := Nat.add_mod_right _ _
  simp only [readScalar, this]

theorem round53_eq {n : Nat} (h : ¬ n < 2 ^ 53) :
    ∃ q, round53 n = q * 2 ^ (n.log2 - 52) ∧ 2 ^ 52 ≤ q ∧ q ≤ 2 ^ 53 := by
  have hn : n ≠ 0 := by omega
  have hlo := Nat.log2_self_le hn
  have hhi := Nat.lt_log2_self (n := n)
  have hl : 53 ≤ n.log2 := (Nat.le_log2 hn).mpr (by omega)
  have hq1 : 2 ^ 52 ≤ n / 2 ^ (n.log2 - 52) := by
    rw [Nat.le_div_iff_mul_le (Nat.two_pow_pos _), ← Nat.pow_add]
    rw [show 52 + (n.log2 - 52) = n.log2 by omega]
    exact hlo
  have hq2 : n / 2 ^ (n.log2 - 52) < 2 ^ 53 := by
    rw [Nat.div_lt_iff_lt_mul (Nat.two_pow_pos _), ← Nat.pow_add]
    rw [show 53 + (n.log2 - 52) = n.log2 + 1 by omega]
    exact hhi
  unfold round53
  rw [if_neg h]
  dsimp only
  split
  · exact ⟨_, rfl, by omega, by omega⟩
  · exact ⟨_, rfl, hq1, by omega⟩

theorem round53_fix {q e : Nat} (h1 : 2 ^ 52 ≤ q) (h2 : q < 2 ^ 53) (he : 1 ≤ e) : round53 (q * 2 ^ e) = q * 2 ^ e := by
  have hp := Nat.two_pow_pos e
  have h2e : 2 ≤ 2 ^ e := by
    calc 2 = 2 ^ 1 := rfl
      _ ≤ 2 ^ e := Nat.pow_le_pow_right (by decide) he
  have hge : ¬ q * 2 ^ e < 2 ^ 53 := by
    have : 2 ^ 52 * 2 ≤ q * 2 ^ e := Nat.mul_le_mul h1 h2e
    omega
  have hl : (q * 2 ^ e).log2 = 52 + e := by
    rw [Nat.log2_eq_iff (by omega)]
    constructor
    · rw [Nat.pow_add]
      exact Nat.mul_le_mul_right _ h1
    · rw [show 52 + e + 1 = 53 + e by omega, Nat.pow_add]
      exact Nat.mul_lt_mul_of_pos_right h2 hp
  unfold round53
  rw [if_neg hge]
  dsimp only
  rw [hl, show 52 + e - 52 = e by omega, Nat.mul_mod_left, Nat.mul_div_cancel _ hp]
  rw [if_neg (by omega)]

/-- Rounding twice changes nothing more. -/
theorem round53_idem (n : Nat) : round53 (round53 n) = round53 n := by
  by_cases h : n < 2 ^ 53
  · rw [round53_small (Nat.le_of_lt h), round53_small (Nat.le_of_lt h)]
  · obtain ⟨q, hr, h1, h2⟩ := round53_eq h
    have hl : 53 ≤ n.log2 := (Nat.le_log2 (by omega)).mpr (by omega)
    rw [hr]
    rcases Nat.lt_or_eq_of_le h2 with h2 | h2
    · exact round53_fix h1 h2 (by omega)
    · rw [h2, show 2 ^ 53 * 2 ^ (n.log2 - 52) = 2 ^ 52 * 2 ^ (n.log2 - 52 + 1) by rw [Nat.pow_succ]; omega]
      exact round53_fix (Nat.le_refl _) (by decide) (by omega)

/-- The number read is the nearest one with 53 significant bits, the even one if there are two: with `2^(52+e) ≤ n`,
the step between such numbers is `2^e`. -/
theorem round53_nearest {n e : Nat} (h1 : 2 ^ 53 ≤ n) (h2 : 2 ^ (52 + e) ≤ n) (h3 : n < 2 ^ (53 + e)) :
    ∃ q, round53 n = q * 2 ^ e ∧ 2 * (round53 n - n) ≤ 2 ^ e ∧ 2 * (n - round53 n) ≤ 2 ^ e ∧
      ((2 * (round53 n - n) = 2 ^ e ∨ 2 * (n - round53 n) = 2 ^ e) → q % 2 = 0) := by
  have hl : n.log2 = 52 + e := by
    rw [Nat.log2_eq_iff (by omega)]
    exact ⟨h2, by rw [show 52 + e + 1 = 53 + e by omega]; exact h3⟩
  have hd := Nat.div_add_mod n (2 ^ e)
  have hm := Nat.mod_lt n (Nat.two_pow_pos e)
  have hc : 2 ^ e * (n / 2 ^ e) = n / 2 ^ e * 2 ^ e := Nat.mul_comm _ _
  unfold round53
  rw [if_neg (by omega)]
  dsimp only
  rw [hl, show 52 + e - 52 = e by omega]
  split
  · rename_i hh
    refine ⟨_, rfl, ?_⟩
    have hsm : (n / 2 ^ e + 1) * 2 ^ e = n / 2 ^ e * 2 ^ e + 2 ^ e := Nat.succ_mul _ _
    rw [hsm]
    refine ⟨by omega, by omega, fun hx => ?_⟩
    rcases hh with hh | hh <;> omega
  · rename_i hh
    refine ⟨_, rfl, by omega, by omega, fun hx => ?_⟩
    have : ¬(2 ^ e < 2 * (n % 2 ^ e)) := fun h => hh (.inl h)
    have h4 : 2 * (n % 2 ^ e) = 2 ^ e := by omega
    have h5 : ¬ (n / 2 ^ e % 2 = 1) := fun h => hh (.inr ⟨h4, h⟩)
    omega

/-- C71: above 2^53 the text shown is that of the nearest number with 53 significant bits, the even one of two; no
multiple of the step between such numbers is closer. -/
theorem C71_nearest (js : Js) (n e : Nat) (h1 : 2 ^ 53 ≤ n) (h2 : 2 ^ (52 + e) ≤ n) (h3 : n < 2 ^ (53 + e))
    (h4 : n < 2 ^ 64) :
    ∃ q, primText js (readScalar (.uint 64 n)) = some (natText js (q * 2 ^ e)) ∧
      (∀ k, (q * 2 ^ e - n) + (n - q * 2 ^ e) ≤ (k * 2 ^ e - n) + (n - k * 2 ^ e)) ∧
      (∀ k, (q * 2 ^ e - n) + (n - q * 2 ^ e) = (k * 2 ^ e - n) + (n - k * 2 ^ e) → k ≠ q → q % 2 = 0) := by
  obtain ⟨q, hq, ha, hb, hc⟩ := round53_nearest h1 h2 h3
  have hu : asU64 n = n := Nat.mod_eq_of_lt h4
  have hdist : ∀ k, k ≠ q → k * 2 ^ e + 2 ^ e ≤ q * 2 ^ e ∨ q * 2 ^ e + 2 ^ e ≤ k * 2 ^ e := by
    intro k hk
    rcases Nat.lt_or_gt_of_ne hk with hlt | hlt
    · left; have := Nat.mul_le_mul_right (2 ^ e) (show k + 1 ≤ q from hlt); rw [Nat.succ_mul] at this; exact this
    · right; have := Nat.mul_le_mul_right (2 ^ e) (show q + 1 ≤ k from hlt); rw [Nat.succ_mul] at this; exact this
  rw [hq] at ha hb hc
  refine ⟨q, by simp only [readScalar, hu, primText, hq], fun k => ?_, fun k he hk => ?_⟩
  · by_cases hk : k = q
    · rw [hk]; exact Nat.le_refl _
    · have := hdist k hk
      omega
  · have := hdist k hk
    exact hc (by omega)

/-- 2^53 + 3 lies halfway between two such numbers and is read as 2^53 + 4; 2^53 + 1 is read as 2^53. -/
example : round53 (2 ^ 53 + 3) = 2 ^ 53 + 4 ∧ round53 (2 ^ 53 + 1) = 2 ^ 53 := by decide +kernel

/-- C71 fails above 2^53: every odd number there is shown with the text of another number. -/
theorem C71_large (js : Js) (n : Nat) (h1 : 2 ^ 53 < n) (h2 : n < 2 ^ 63) (hodd : n % 2 = 1) :
    ∃ m, m ≠ n ∧ m < 2 ^ 64 ∧
      primText js (readScalar (.uint 64 m)) = primText js (readScalar (.uint 64 n)) := by
  obtain ⟨q, hr, hq1, hq2⟩ := round53_eq (n := n) (by omega)
  have hl : 53 ≤ n.log2 := (Nat.le_log2 (by omega)).mpr (by omega)
  have hl2 : n.log2 < 63 := (Nat.log2_lt (by omega)).mpr h2
  have hpow : 2 ^ (n.log2 - 52) ≤ 2 ^ 10 := Nat.pow_le_pow_right (by decide) (by omega)
  have hlt : round53 n < 2 ^ 64 := by
    rw [hr]
    have : q * 2 ^ (n.log2 - 52) ≤ 2 ^ 53 * 2 ^ 10 := Nat.mul_le_mul hq2 hpow
    omega
  have heven : round53 n % 2 = 0 := by
    rw [hr, show n.log2 - 52 = (n.log2 - 53) + 1 by omega, Nat.pow_succ, ← Nat.mul_assoc]
    exact Nat.mul_mod_left _ _
  refine ⟨round53 n, fun e => by omega, hlt, ?_⟩
  have ha : asU64 (round53 n) = round53 n := Nat.mod_eq_of_lt hlt
  have hb : asU64 n = n := Nat.mod_eq_of_lt (by omega)
  simp only [readScalar, ha, hb, primText, round53_idem]

/-- C71 fails: a float that is infinite or not a number gives no text at all. -/
theorem C71_not_finite (js : Js) (bits : Nat) :
    primText js (readScalar (.float bits)) = none ↔ bits / 2 ^ 52 % 2 ^ 11 = 2047 := by
  simp only [readScalar, primText, finite]
  by_cases h : bits / 2 ^ 52 % 2 ^ 11 = 2047 <;> simp [h]

/-- Every primitive except those floats gives a text. -/
theorem C71_shown (js : Js) (s : Scalar) (h : ∀ bits, s = .float bits → finite bits = true) :
    ∃ t, primText js (readScalar s) = some t := by
  cases s with
  | float bits => exact ⟨js.float bits, by simp only [readScalar, primText, h bits rfl, if_true]⟩
  | bool b => exact ⟨_, rfl⟩
  | char c => exact ⟨_, rfl⟩
  | uint w n => exact ⟨_, rfl⟩
  | int w i => exact ⟨_, rfl⟩

/-! ## Cases -/

/-- Some text for the parameters. -/
def js0 : Js := ⟨fun _ => [63], fun _ => [63]⟩

example : primText js0 (readScalar (.uint 32 1203)) = some (lettersOf ['1', '2', '0', '3']) := by decide +kernel
example : primText js0 (readScalar (.int 8 (-17))) = some (lettersOf ['-', '1', '7']) := by decide +kernel
example : integerOf (lettersOf ['-', '1', '7']) = -17 := by decide
example : primText js0 (readScalar (.uint 128 (2 ^ 64))) = some (lettersOf ['0']) := by decide +kernel
example : round53 9007199254740993 = 9007199254740992 := by decide +kernel
/-- A grinning face is shown as one private-use unit. -/
example : primText js0 (readScalar (.char (Char.ofNat 0x1F600))) = some [0xF600] := by decide +kernel
example : utf16 (Char.ofNat 0x1F600) = [0xD83D, 0xDE00] := by decide
/-- The two bytes of an accented letter. -/
example : utf8 (Char.ofNat 0xE9) = [0xC3, 0xA9] := by decide
example : stringText js0 (utf8 (Char.ofNat 0xE9)) = some [[0xC3], [0xA9]] := by decide +kernel
/-- Infinity. -/
example : primText js0 (readScalar (.float 0x7FF0000000000000)) = none := by decide +kernel

end Verif.Frontend
