import Verif.Serve.Config
/-!
# Theorems about where the server listens and where the page asks (C134)
-/
namespace Verif.Serve

/-! ## Specification -/

/-- The ten digits with their values. -/
def DigitOf (c : Char) (d : Nat) : Prop := d < 10 ∧ c = Char.ofNat (48 + d)

/-- The text is the number in decimal, perhaps with zeros in front. -/
inductive Numeral : Text → Nat → Prop
  | one {c : Char} {d : Nat} : DigitOf c d → Numeral [c] d
  | more {s : Text} {n : Nat} {c : Char} {d : Nat} : Numeral s n → DigitOf c d → Numeral (s ++ [c]) (10 * n + d)

/-- The text names the port. -/
def NamesPort (t : Text) (p : Nat) : Prop := p < 65536 ∧ (Numeral t p ∨ ∃ s, t = '+' :: s ∧ Numeral s p)

/-- An address of version 4 as it is written. -/
def dotted (a b c d : Nat) : Text :=
  Nat.toDigits 10 a ++ '.' :: (Nat.toDigits 10 b ++ '.' :: (Nat.toDigits 10 c ++ '.' :: Nat.toDigits 10 d))

/-! ## Digits -/

theorem digit_lt {c : Char} {d : Nat} (h : digit c = some d) : d < 10 ∧ c = Char.ofNat (48 + d) := by
  unfold digit at h
  split at h
  · rename_i hc
    simp only [Option.some.injEq] at h
    have h1 : 48 ≤ c.toNat := hc.1
    have h2 : c.toNat ≤ 57 := hc.2
    refine ⟨by omega, ?_⟩
    rw [← h, show 48 + (c.toNat - 48) = c.toNat by omega, Char.ofNat_toNat]
  · exact absurd h (by simp)

theorem digit_ofNat : ∀ d : Fin 10, digit (Char.ofNat (48 + d.val)) = some d.val := by decide +kernel

theorem digit_iff {c : Char} {d : Nat} : digit c = some d ↔ DigitOf c d := by
  constructor
  · exact digit_lt
  · rintro ⟨h, rfl⟩
    exact digit_ofNat ⟨d, h⟩

/-- The number that a list of digits stands for, read from the front. -/
def valueFrom (n : Nat) (ds : List Nat) : Nat := ds.foldl (fun n d => n * 10 + d) n

theorem valueFrom_ge (ds : List Nat) (n : Nat) : n ≤ valueFrom n ds := by
  induction ds generalizing n with
  | nil => exact Nat.le_refl _
  | cons d ds ih => exact Nat.le_trans (by omega) (ih (n * 10 + d))

theorem u16Digits_iff (cs : Text) (n : Nat) (hn : n < 65536) (p : Nat) : u16Digits n cs = some p ↔
    p < 65536 ∧ ∃ ds, cs.map digit = ds.map some ∧ valueFrom n ds = p := by
  induction cs generalizing n with
  | nil =>
    simp only [u16Digits, Option.some.injEq, List.map_nil]
    constructor
    · rintro rfl
      exact ⟨hn, [], rfl, rfl⟩
    · rintro ⟨_, ds, h, e⟩
      cases ds with
      | nil => exact e
      | cons d ds => simp at h
  | cons c cs ih =>
    unfold u16Digits
    cases hd : digit c with
    | none =>
      simp only [reduceCtorEq, false_iff, not_and]
      rintro _ ⟨ds, h, _⟩
      cases ds with
      | nil => simp at h
      | cons d ds => simp [hd] at h
    | some d =>
      simp only
      have key : (∃ ds, (c :: cs).map digit = ds.map some ∧ valueFrom n ds = p) ↔
          ∃ ds, cs.map digit = ds.map some ∧ valueFrom (n * 10 + d) ds = p := by
        constructor
        · rintro ⟨ds, h, e⟩
          cases ds with
          | nil => simp at h
          | cons d' ds =>
            simp only [List.map_cons, hd, List.cons.injEq, Option.some.injEq] at h
            obtain ⟨rfl, h⟩ := h
            exact ⟨ds, h, e⟩
        · rintro ⟨ds, h, e⟩
          exact ⟨d :: ds, by simp [hd, h], e⟩
      rw [key]
      by_cases h2 : n * 10 + d < 65536
      · rw [if_pos (by omega), if_pos h2]
        exact ih _ h2
      · have : (if n * 10 < 65536 then if n * 10 + d < 65536 then u16Digits (n * 10 + d) cs else none else none)
            = none := by
          split
          · rfl
          · rfl
        rw [this]
        simp only [reduceCtorEq, false_iff, not_and]
        rintro hp ⟨ds, _, e⟩
        have := valueFrom_ge ds (n * 10 + d)
        omega

theorem valueFrom_concat (n : Nat) (ds : List Nat) (d : Nat) : valueFrom n (ds ++ [d]) = valueFrom n ds * 10 + d := by
  simp [valueFrom, List.foldl_append]

theorem numeral_reverse (r : Text) (hne : r ≠ []) (ds : List Nat) (e : r.reverse.map digit = ds.map some) :
    Numeral r.reverse (valueFrom 0 ds) := by
  induction r generalizing ds with
  | nil => exact absurd rfl hne
  | cons c r ih =>
    rw [List.reverse_cons, List.map_append] at e
    obtain ⟨ds1, ds2, rfl, e1, e2⟩ := List.map_eq_append_iff.1 e.symm
    cases ds2 with
    | nil => simp at e2
    | cons d ds2 =>
      cases ds2 with
      | cons _ _ => simp at e2
      | nil =>
        have hd : digit c = some d := by simpa using e2.symm
        rw [List.reverse_cons, valueFrom_concat]
        cases r with
        | nil =>
          cases ds1 with
          | cons _ _ => simp at e1
          | nil => simpa [valueFrom] using Numeral.one (digit_iff.1 hd)
        | cons c' r =>
          have := ih (by simp) ds1 e1.symm
          rw [Nat.mul_comm]
          exact .more this (digit_iff.1 hd)

theorem numeral_iff (t : Text) (n : Nat) : Numeral t n ↔
    t ≠ [] ∧ ∃ ds, t.map digit = ds.map some ∧ valueFrom 0 ds = n := by
  constructor
  · intro h
    induction h with
    | @one c d h => exact ⟨by simp, [d], by simp [digit_iff.2 h], by simp [valueFrom]⟩
    | @more _ _ c d _ h ih =>
      obtain ⟨_, ds, e, v⟩ := ih
      exact ⟨by simp, ds ++ [d], by simp [e, digit_iff.2 h], by rw [valueFrom_concat, v]; omega⟩
  · rintro ⟨hne, ds, e, rfl⟩
    have := numeral_reverse t.reverse (by simpa using hne) ds (by simpa using e)
    simpa using this

theorem parseU16_iff (t : Text) (p : Nat) : parseU16 t = some p ↔ NamesPort t p := by
  have plain : ∀ s : Text, s ≠ [] → (u16Digits 0 s = some p ↔ p < 65536 ∧ Numeral s p) := by
    intro s hs
    rw [u16Digits_iff s 0 (by omega) p, numeral_iff]
    simp [hs]
  have noPlus : ∀ s, ¬ Numeral ('+' :: s) p := by
    intro s h
    obtain ⟨_, ds, e, _⟩ := (numeral_iff _ _).1 h
    have hd : digit '+' = none := by decide
    cases ds with
    | nil => simp at e
    | cons d ds => simp [hd] at e
  unfold parseU16 NamesPort
  split
  · simp only [reduceCtorEq, false_iff, not_and]
    rintro _ (h | ⟨s, e, _⟩)
    · exact ((numeral_iff _ _).1 h).1 rfl
    · exact absurd e (by simp)
  · simp only [reduceCtorEq, false_iff, not_and]
    rintro _ (h | ⟨s, e, h⟩)
    · exact noPlus _ h
    · obtain rfl : s = [] := by simpa using e.symm
      exact ((numeral_iff _ _).1 h).1 rfl
  · rename_i cs hcs
    have hne : cs ≠ [] := fun e => hcs e
    rw [plain cs hne]
    constructor
    · rintro ⟨h1, h2⟩
      exact ⟨h1, .inr ⟨cs, rfl, h2⟩⟩
    · rintro ⟨h1, h | ⟨s, e, h⟩⟩
      · exact absurd h (noPlus _)
      · simp only [List.cons.injEq, true_and] at e
        exact ⟨h1, e ▸ h⟩
  · rename_i h1 h2 h3
    rw [plain t h1]
    constructor
    · rintro ⟨a, b⟩
      exact ⟨a, .inl b⟩
    · rintro ⟨a, h | ⟨s, e, h⟩⟩
      · exact ⟨a, h⟩
      · exact absurd e (h3 s)

/-! ## Addresses -/

theorem octet_shown : ∀ n : Fin 256, octet (Nat.toDigits 10 n.val) = some n.val ∧
    (Nat.toDigits 10 n.val).all isDigit = true := by decide +kernel

theorem octet_one : ∀ a : Fin 10, ∀ n ∈ octet [Char.ofNat (48 + a.val)],
    n < 256 ∧ [Char.ofNat (48 + a.val)] = Nat.toDigits 10 n := by decide +kernel

theorem octet_two : ∀ a b : Fin 10, ∀ n ∈ octet [Char.ofNat (48 + a.val), Char.ofNat (48 + b.val)],
    n < 256 ∧ [Char.ofNat (48 + a.val), Char.ofNat (48 + b.val)] = Nat.toDigits 10 n := by decide +kernel

theorem octet_three : ∀ a b c : Fin 10, ∀ n ∈ octet [Char.ofNat (48 + a.val), Char.ofNat (48 + b.val), Char.ofNat (48 + c.val)],
    n < 256 ∧ [Char.ofNat (48 + a.val), Char.ofNat (48 + b.val), Char.ofNat (48 + c.val)] = Nat.toDigits 10 n := by
  decide +kernel

theorem isDigit_form {c : Char} (h : isDigit c = true) : ∃ d : Fin 10, c = Char.ofNat (48 + d.val) := by
  unfold isDigit at h
  obtain ⟨d, hd⟩ := Option.isSome_iff_exists.1 h
  exact ⟨⟨d, (digit_lt hd).1⟩, (digit_lt hd).2⟩

theorem octet_iff {ds : Text} (hd : ∀ c ∈ ds, isDigit c = true) (n : Nat) :
    octet ds = some n ↔ n < 256 ∧ ds = Nat.toDigits 10 n := by
  constructor
  · intro h
    match ds, hd, h with
    | [], _, h => simp [octet] at h
    | [x], hd, h =>
      obtain ⟨a, rfl⟩ := isDigit_form (hd x (by simp))
      exact octet_one a n h
    | [x, y], hd, h =>
      obtain ⟨a, rfl⟩ := isDigit_form (hd x (by simp))
      obtain ⟨b, rfl⟩ := isDigit_form (hd y (by simp))
      exact octet_two a b n h
    | [x, y, z], hd, h =>
      obtain ⟨a, rfl⟩ := isDigit_form (hd x (by simp))
      obtain ⟨b, rfl⟩ := isDigit_form (hd y (by simp))
      obtain ⟨c, rfl⟩ := isDigit_form (hd z (by simp))
      exact octet_three a b c n h
    | x :: y :: z :: w :: r, _, h => simp [octet] at h
  · rintro ⟨h, rfl⟩
    exact (octet_shown ⟨n, h⟩).1

/-- No digit comes next. -/
def Stops (s : Text) : Prop := ∀ c, s.head? = some c → isDigit c = false

theorem takeWhile_all {p : Char → Bool} {ds r : Text} (h : ∀ c ∈ ds, p c = true) (hr : ∀ c, r.head? = some c → p c = false) :
    (ds ++ r).takeWhile p = ds ∧ (ds ++ r).dropWhile p = r := by
  induction ds with
  | nil =>
    cases r with
    | nil => exact ⟨rfl, rfl⟩
    | cons c r =>
      have := hr c rfl
      simp [List.takeWhile, List.dropWhile, this]
  | cons c ds ih =>
    have := ih (fun x hx => h x (by simp [hx]))
    have hc := h c (by simp)
    simp [List.takeWhile, List.dropWhile, hc, this]

theorem dropWhile_stops (p : Char → Bool) (s : Text) : ∀ c, (s.dropWhile p).head? = some c → p c = false := by
  induction s with
  | nil => intro c h; exact absurd h (by simp)
  | cons x s ih =>
    intro c h
    cases hx : p x with
    | true => rw [List.dropWhile_cons_of_pos hx] at h; exact ih c h
    | false =>
      rw [List.dropWhile_cons_of_neg (by simp [hx])] at h
      simp only [List.head?_cons, Option.some.injEq] at h
      exact h ▸ hx

theorem mem_takeWhile (p : Char → Bool) (s : Text) : ∀ c ∈ s.takeWhile p, p c = true := by
  induction s with
  | nil => intro c h; exact absurd h (by simp)
  | cons x s ih =>
    intro c h
    cases hx : p x with
    | true =>
      rw [List.takeWhile_cons_of_pos hx] at h
      rcases List.mem_cons.1 h with rfl | h
      · exact hx
      · exact ih c h
    | false => rw [List.takeWhile_cons_of_neg (by simp [hx])] at h; exact absurd h (by simp)

theorem readOctet_iff (s : Text) (n : Nat) (r : Text) : readOctet s = some (n, r) ↔
    n < 256 ∧ s = Nat.toDigits 10 n ++ r ∧ Stops r := by
  unfold readOctet
  constructor
  · intro h
    split at h
    · rename_i m hm
      simp only [Option.some.injEq, Prod.mk.injEq] at h
      obtain ⟨rfl, rfl⟩ := h
      obtain ⟨h1, h2⟩ := (octet_iff (mem_takeWhile _ _) m).1 hm
      exact ⟨h1, by rw [← h2, List.takeWhile_append_dropWhile], dropWhile_stops _ _⟩
    · exact absurd h (by simp)
  · rintro ⟨h, rfl, hr⟩
    have hd := List.all_eq_true.1 (octet_shown ⟨n, h⟩).2
    obtain ⟨e1, e2⟩ := takeWhile_all hd hr
    rw [e1, e2, (octet_shown ⟨n, h⟩).1]

theorem readDotOctet_iff (s : Text) (n : Nat) (r : Text) : readDotOctet s = some (n, r) ↔
    n < 256 ∧ s = '.' :: (Nat.toDigits 10 n ++ r) ∧ Stops r := by
  unfold readDotOctet
  split
  · rw [readOctet_iff]
    simp
  · rename_i hs
    simp only [reduceCtorEq, false_iff, not_and]
    intro _ e
    exact absurd e (hs _)

theorem stops_dot (s : Text) : Stops ('.' :: s) := by
  intro c h
  simp only [List.head?_cons, Option.some.injEq] at h
  subst h
  decide

theorem parseV4_iff (s : Text) (a b c d : Nat) : parseV4 s = some (a, b, c, d) ↔
    (a < 256 ∧ b < 256 ∧ c < 256 ∧ d < 256) ∧ s = dotted a b c d := by
  unfold parseV4 dotted
  constructor
  · intro h
    cases h1 : readOctet s with
    | none => rw [h1] at h; exact absurd h (by simp)
    | some q1 =>
      obtain ⟨a', s1⟩ := q1
      rw [h1] at h
      simp only [Option.bind_eq_bind, Option.bind_some] at h
      cases h2 : readDotOctet s1 with
      | none => rw [h2] at h; exact absurd h (by simp)
      | some q2 =>
        obtain ⟨b', s2⟩ := q2
        rw [h2] at h
        simp only [Option.bind_some] at h
        cases h3 : readDotOctet s2 with
        | none => rw [h3] at h; exact absurd h (by simp)
        | some q3 =>
          obtain ⟨c', s3⟩ := q3
          rw [h3] at h
          simp only [Option.bind_some] at h
          cases h4 : readDotOctet s3 with
          | none => rw [h4] at h; exact absurd h (by simp)
          | some q4 =>
            obtain ⟨d', s4⟩ := q4
            rw [h4] at h
            simp only [Option.bind_some] at h
            split at h
            · rename_i e
              simp only [Option.some.injEq, Prod.mk.injEq] at h
              obtain ⟨rfl, rfl, rfl, rfl⟩ := h
              obtain ⟨i1, e1, _⟩ := (readOctet_iff _ _ _).1 h1
              obtain ⟨i2, e2, _⟩ := (readDotOctet_iff _ _ _).1 h2
              obtain ⟨i3, e3, _⟩ := (readDotOctet_iff _ _ _).1 h3
              obtain ⟨i4, e4, _⟩ := (readDotOctet_iff _ _ _).1 h4
              exact ⟨⟨i1, i2, i3, i4⟩, by rw [e1, e2, e3, e4, e, List.append_nil]⟩
            · exact absurd h (by simp)
  · rintro ⟨⟨i1, i2, i3, i4⟩, rfl⟩
    rw [(readOctet_iff _ a _).2 ⟨i1, rfl, stops_dot _⟩]
    simp only [Option.bind_eq_bind, Option.bind_some]
    rw [(readDotOctet_iff _ b _).2 ⟨i2, rfl, stops_dot _⟩]
    simp only [Option.bind_some]
    rw [(readDotOctet_iff _ c _).2 ⟨i3, rfl, stops_dot _⟩]
    simp only [Option.bind_some]
    rw [(readDotOctet_iff _ d []).2 ⟨i4, by rw [List.append_nil], fun c h => absurd h (by simp)⟩]
    simp

/-! ## C134 -/

/-- A server that comes up listens on the port that its variable names, and on 8008 if there is no variable or it names no
port: a text that names none is not reported. -/
theorem C134_port {v6 : Text → Option Nat} {address port : Var} {ip : Ip} {p : Nat} (h : listens v6 address port = some (ip, p)) :
    (∃ t, port = .text t ∧ NamesPort t p) ∨ (p = 8008 ∧ ∀ t q, port = .text t → ¬ NamesPort t q) := by
  have hp : p = (port.get.bind parseU16).getD defaultPort := by
    unfold listens Config.socketAddress Config.fromEnv at h
    dsimp only at h
    split at h
    · exact absurd h (by simp)
    · simp only [Option.some.injEq, Prod.mk.injEq] at h
      exact h.2.symm
  cases port with
  | unset => exact .inr ⟨hp, fun t q e => absurd e (by simp)⟩
  | garbled => exact .inr ⟨hp, fun t q e => absurd e (by simp)⟩
  | text t =>
    simp only [Var.get, Option.bind_some] at hp
    cases hq : parseU16 t with
    | some q =>
      rw [hq] at hp
      exact .inl ⟨t, rfl, (parseU16_iff _ _).1 (by rw [hq, hp]; rfl)⟩
    | none =>
      rw [hq] at hp
      refine .inr ⟨hp, fun t' q e hn => ?_⟩
      cases e
      rw [(parseU16_iff _ _).2 hn] at hq
      exact absurd hq (by simp)

/-- No text names two ports. -/
theorem C134_one_port {t : Text} {p q : Nat} (hp : NamesPort t p) (hq : NamesPort t q) : p = q := by
  have h1 := (parseU16_iff _ _).2 hp
  rw [(parseU16_iff _ _).2 hq] at h1
  simpa using h1.symm

/-- The server comes up at an address of version 4 if and only if the variable has this address, in the one way to write it;
without the variable the address is 127.0.0.1. -/
theorem C134_address (v6 : Text → Option Nat) (address port : Var) (a b c d : Nat) :
    (∃ p, listens v6 address port = some (.v4 a b c d, p)) ↔
      (a < 256 ∧ b < 256 ∧ c < 256 ∧ d < 256) ∧
        (address = .text (dotted a b c d) ∨ ((∀ t, address ≠ .text t) ∧ (a, b, c, d) = (127, 0, 0, 1))) := by
  have key : (∃ p, listens v6 address port = some (.v4 a b c d, p)) ↔
      parseV4 (address.get.getD defaultAddress) = some (a, b, c, d) := by
    unfold listens Config.socketAddress Config.fromEnv parseIp
    dsimp only
    cases hv : parseV4 (address.get.getD defaultAddress) with
    | none => cases v6 (address.get.getD defaultAddress) <;> simp
    | some q =>
      obtain ⟨a', b', c', d'⟩ := q
      simp
  rw [key, parseV4_iff]
  have hd : ∀ a b c d, a < 256 → b < 256 → c < 256 → d < 256 → (defaultAddress = dotted a b c d ↔ (a, b, c, d) = (127, 0, 0, 1)) := by
    intro a b c d h1 h2 h3 h4
    constructor
    · intro e
      have h := (parseV4_iff defaultAddress a b c d).2 ⟨⟨h1, h2, h3, h4⟩, e⟩
      rw [show parseV4 defaultAddress = some (127, 0, 0, 1) by decide +kernel] at h
      simpa using h.symm
    · intro e
      cases e
      decide +kernel
  cases address with
  | text t => simp [Var.get]
  | unset =>
    simp only [Var.get, Option.getD_none, reduceCtorEq, false_or, ne_eq, not_false_eq_true, implies_true, true_and]
    constructor
    · rintro ⟨hb, e⟩; exact ⟨hb, (hd a b c d hb.1 hb.2.1 hb.2.2.1 hb.2.2.2).1 e⟩
    · rintro ⟨hb, e⟩; exact ⟨hb, (hd a b c d hb.1 hb.2.1 hb.2.2.1 hb.2.2.2).2 e⟩
  | garbled =>
    simp only [Var.get, Option.getD_none, reduceCtorEq, false_or, ne_eq, not_false_eq_true, implies_true, true_and]
    constructor
    · rintro ⟨hb, e⟩; exact ⟨hb, (hd a b c d hb.1 hb.2.1 hb.2.2.1 hb.2.2.2).1 e⟩
    · rintro ⟨hb, e⟩; exact ⟨hb, (hd a b c d hb.1 hb.2.1 hb.2.2.1 hb.2.2.2).2 e⟩

/-- The server does not come up if and only if the variable has a text that is no address: names of hosts among them. -/
theorem C134_down (v6 : Text → Option Nat) (address port : Var) : listens v6 address port = none ↔
    ∃ t, address = .text t ∧ v6 t = none ∧ ∀ a b c d, a < 256 → b < 256 → c < 256 → d < 256 → t ≠ dotted a b c d := by
  have hdef : parseV4 defaultAddress = some (127, 0, 0, 1) := by decide +kernel
  unfold listens Config.socketAddress Config.fromEnv parseIp
  dsimp only
  cases address with
  | unset => simp [Var.get, hdef]
  | garbled => simp [Var.get, hdef]
  | text t =>
    simp only [Var.get, Option.getD_some]
    cases hv : parseV4 t with
    | some q =>
      obtain ⟨a, b, c, d⟩ := q
      simp only [reduceCtorEq, false_iff, not_exists]
      rintro t' ⟨e, _, h⟩
      cases e
      obtain ⟨⟨i1, i2, i3, i4⟩, e⟩ := (parseV4_iff _ _ _ _ _).1 hv
      exact h a b c d i1 i2 i3 i4 e
    | none =>
      have no : ∀ a b c d, a < 256 → b < 256 → c < 256 → d < 256 → t ≠ dotted a b c d := by
        intro a b c d i1 i2 i3 i4 e
        rw [(parseV4_iff _ _ _ _ _).2 ⟨⟨i1, i2, i3, i4⟩, e⟩] at hv
        exact absurd hv (by simp)
      cases h6 : v6 t with
      | none =>
        simp only [Option.map_none, true_iff]
        exact ⟨t, rfl, h6, no⟩
      | some n =>
        simp only [Option.map_some, reduceCtorEq, false_iff, not_exists]
        rintro t' ⟨e, h, _⟩
        cases e
        rw [h6] at h
        exact absurd h (by simp)

theorem path_ne {ss : List Text} {w : Text} (h : ss ≠ []) (hw : w.all (· != '/') = true) (w' : Text) (hw' : w'.all (· != '/') = true) :
    (ss ++ [w]).flatMap (fun s => '/' :: s) ≠ '/' :: w' := by
  cases ss with
  | nil => exact absurd rfl h
  | cons s ss =>
    intro e
    simp only [List.cons_append, List.flatMap_cons, List.cons.injEq, true_and, List.flatMap_append, List.flatMap_nil,
      List.append_nil] at e
    have : '/' ∈ w' := by rw [← e]; simp
    exact absurd (List.all_eq_true.1 hw' _ this) (by decide)

/-- Requests from a base address. -/
theorem arrives (server : Option (Ip × Nat)) (base : Url) (hb : base.segments ≠ []) (op : Op) (req : Request) :
    (deliver server base op req = .routed (.run op req) ↔
      server = some (base.host, base.port) ∧ base.segments.length = 1) ∧
    (¬ (server = some (base.host, base.port) ∧ base.segments.length = 1) →
      deliver server base op req = .elsewhere ∨ deliver server base op req = .routed .noRoute) := by
  have hw : op.word.all (· != '/') = true := by cases op <;> decide
  have one : base.segments.length = 1 → route .post (base.join op.word).path (some req) = .run op req := by
    intro h
    obtain ⟨s, hs⟩ := List.length_eq_one_iff.1 h
    have : (base.join op.word).path = '/' :: op.word := by simp [Url.join, Url.path, hs]
    rw [this]
    cases op <;> simp [route, hiPath, permissionsPath, interpreterPath, Op.word]
  have more : base.segments.length ≠ 1 → route .post (base.join op.word).path (some req) = .noRoute := by
    intro h
    have hd : base.segments.dropLast ≠ [] := by
      intro e
      have hl := congrArg List.length e
      rw [List.length_dropLast, List.length_nil] at hl
      have : base.segments.length ≠ 0 := fun e => hb (List.length_eq_zero_iff.1 e)
      omega
    have hp := fun w' hw' => path_ne (w := op.word) hd hw w' hw'
    have p1 : (base.join op.word).path ≠ hiPath := hp ['h', 'i'] (by decide)
    have p2 : (base.join op.word).path ≠ permissionsPath := hp _ (by decide)
    have p3 : (base.join op.word).path ≠ interpreterPath := hp _ (by decide)
    simp [route, p1, p2, p3]
  have hh : (base.join op.word).host = base.host ∧ (base.join op.word).port = base.port := ⟨rfl, rfl⟩
  unfold deliver
  dsimp only
  rw [hh.1, hh.2]
  by_cases hs : server = some (base.host, base.port)
  · rw [if_pos hs]
    by_cases hl : base.segments.length = 1
    · rw [one hl]
      exact ⟨⟨fun _ => ⟨hs, hl⟩, fun _ => rfl⟩, fun h => absurd ⟨hs, hl⟩ h⟩
    · rw [more hl]
      refine ⟨⟨fun h => ?_, fun h => absurd h.2 hl⟩, fun _ => .inr rfl⟩
      cases h
  · rw [if_neg hs]
    refine ⟨⟨fun h => ?_, fun h => absurd h.1 hs⟩, fun _ => .inl rfl⟩
    cases h

/-- A request of the page reaches the operation it is for if and only if the server listens at the host and port of the
address that was put into the page and its path has no further segment.  In all other cases no operation is run. -/
theorem C134_arrives (server : Option (Ip × Nat)) (base : Url) (hb : base.segments ≠ []) (op : Op) (req : Request) :
    (deliver server (pageBase (some base)) op req = .routed (.run op req) ↔
      server = some (base.host, base.port) ∧ base.segments.length = 1) ∧
    (¬ (server = some (base.host, base.port) ∧ base.segments.length = 1) →
      deliver server (pageBase (some base)) op req = .elsewhere ∨
        deliver server (pageBase (some base)) op req = .routed .noRoute) := arrives server base hb op req

/-- A page and a server that are built and started without any variables work together. -/
theorem C134_default (v6 : Text → Option Nat) (op : Op) (req : Request) :
    deliver (listens v6 .unset .unset) (pageBase none) op req = .routed (.run op req) := by
  refine ((arrives _ _ (by decide) op req).1).2 ⟨?_, by decide⟩
  have h : ∃ p, listens v6 .unset .unset = some (.v4 127 0 0 1, p) :=
    (C134_address v6 .unset .unset 127 0 0 1).2 ⟨by decide, .inr ⟨by simp, rfl⟩⟩
  obtain ⟨p, h⟩ := h
  rcases C134_port h with ⟨t, e, _⟩ | ⟨rfl, _⟩
  · exact absurd e (by simp)
  · exact h

/-- The variables of the server are not those of the page: a server that is told another port gets no request of a page built
without a variable. -/
theorem C134_apart {v6 : Text → Option Nat} {address : Var} {t : Text} {p : Nat} (hp : NamesPort t p) (h : p ≠ 8008)
    (op : Op) (req : Request) : deliver (listens v6 address (.text t)) (pageBase none) op req = .elsewhere := by
  unfold deliver
  dsimp only
  rw [if_neg]
  intro e
  rcases C134_port e with ⟨t', e', h'⟩ | ⟨_, h'⟩
  · cases e'
    exact h (C134_one_port hp h')
  · exact h' t p rfl hp

/-! ## Cases -/

example : NamesPort ['+', '0', '8', '0'] 80 := (parseU16_iff _ _).1 (by decide)
example : ¬ ∃ p, NamesPort ['6', '5', '5', '3', '6'] p := by
  rintro ⟨p, h⟩
  have := (parseU16_iff _ _).2 h
  rw [show parseU16 ['6', '5', '5', '3', '6'] = none by decide] at this
  exact absurd this (by simp)
#guard listens (fun _ => none) (.text ['0', '.', '0', '.', '0', '.', '0']) (.text [' ', '8', '0']) = some (.v4 0 0 0 0, 8008)
#guard listens (fun _ => none) (.text ['0', '1', '.', '0', '.', '0', '.', '0']) .unset = none
#guard listens (fun _ => none) (.text ['l', 'o', 'c', 'a', 'l', 'h', 'o', 's', 't']) .garbled = none
#guard (match deliver (some (.v4 127 0 0 1, 8008)) { defaultUrl with segments := [['a'], []] } .interpreter ⟨[], none⟩ with
  | .routed .noRoute => true | _ => false)
#guard (match deliver (some (.v4 127 0 0 1, 8008)) { defaultUrl with segments := [['a']] } .interpreter ⟨[], none⟩ with
  | .routed (.run .interpreter _) => true | _ => false)

end Verif.Serve
