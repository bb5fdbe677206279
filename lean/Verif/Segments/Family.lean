import Verif.Segments.Lemmas
/-!
# The union-find table and the families of branches
-/
namespace Verif.Segments

open Verif.Cfg Verif.Graph

/-! ## Searching for the switch -/

theorem chain_add (m : Mapper) (b i k : Nat) :
    chain m b (i + k) = (chain m b i).bind (fun x => chain m x k) := by
  induction k with
  | zero => cases h : chain m b i <;> simp [chain]
  | succ k ih =>
    rw [Nat.add_succ, chain, ih]
    cases h : chain m b i with
    | none => rfl
    | some x => simp only [Option.bind_some, chain]

theorem chain_succ (m : Mapper) (b i : Nat) : chain m b (i + 1) =
    match m.succ b with
    | [t] => chain m t i
    | _ => none := by
  rw [Nat.add_comm, chain_add]
  have : chain m b 1 = match m.succ b with
    | [t] => some t
    | _ => none := rfl
  rw [this]
  split <;> rfl

theorem linearSearch_found (m : Mapper) (fuel b r : Nat) : linearSearch m fuel b = .found r ↔
    ∃ i < fuel, chain m b i = some r ∧ m.isSwitch r = true ∧
      ∀ j < i, ∀ x, chain m b j = some x → m.isSwitch x = false := by
  induction fuel generalizing b with
  | zero => simp [linearSearch]
  | succ fuel ih =>
    rw [linearSearch]
    split
    · rename_i hs
      simp only [Search.found.injEq]
      constructor
      · rintro rfl
        exact ⟨0, by omega, rfl, hs, fun j hj => absurd hj (by omega)⟩
      · rintro ⟨i, _, h1, h2, h3⟩
        cases i with
        | zero => simpa [chain] using h1
        | succ i => have := h3 0 (by omega) b rfl; rw [hs] at this; exact absurd this (by simp)
    · rename_i hs
      have hs : m.isSwitch b = false := by simpa using hs
      split
      · rename_i t ht
        rw [ih]
        constructor
        · rintro ⟨i, h0, h1, h2, h3⟩
          refine ⟨i + 1, by omega, by rw [chain_succ, ht]; exact h1, h2, ?_⟩
          intro j hj x hx
          cases j with
          | zero => simp only [chain, Option.some.injEq] at hx; subst hx; exact hs
          | succ j => rw [chain_succ, ht] at hx; exact h3 j (by omega) x hx
        · rintro ⟨i, h0, h1, h2, h3⟩
          cases i with
          | zero => simp only [chain, Option.some.injEq] at h1; subst h1; rw [hs] at h2; exact absurd h2 (by simp)
          | succ i =>
            rw [chain_succ, ht] at h1
            refine ⟨i, by omega, h1, h2, ?_⟩
            intro j hj x hx
            exact h3 (j + 1) (by omega) x (by rw [chain_succ, ht]; exact hx)
      · rename_i ht
        constructor
        · intro h; exact absurd h (by simp)
        · rintro ⟨i, h0, h1, h2, h3⟩
          cases i with
          | zero => simp only [chain, Option.some.injEq] at h1; subst h1; rw [hs] at h2; exact absurd h2 (by simp)
          | succ i =>
            rw [chain_succ] at h1
            split at h1
            · rename_i t' ht'; exact absurd ht' (ht t')
            · exact absurd h1 (by simp)

theorem linearSearch_diverges (m : Mapper) (fuel b : Nat) : linearSearch m fuel b = .diverges ↔
    (∀ i < fuel, ∃ x, chain m b i = some x ∧ m.isSwitch x = false) ∧ ∃ y, chain m b fuel = some y := by
  induction fuel generalizing b with
  | zero => simp [linearSearch, chain]
  | succ fuel ih =>
    rw [linearSearch]
    split
    · rename_i hs
      constructor
      · intro h; exact absurd h (by simp)
      · rintro ⟨h, _⟩
        obtain ⟨x, h1, h2⟩ := h 0 (by omega)
        simp only [chain, Option.some.injEq] at h1
        subst h1
        rw [hs] at h2; exact absurd h2 (by simp)
    · rename_i hs
      have hs : m.isSwitch b = false := by simpa using hs
      split
      · rename_i t ht
        rw [ih, chain_succ, ht]
        constructor
        · rintro ⟨h, hy⟩
          refine ⟨?_, hy⟩
          intro i hi
          cases i with
          | zero => exact ⟨b, rfl, hs⟩
          | succ i => rw [chain_succ, ht]; exact h i (by omega)
        · rintro ⟨h, hy⟩
          refine ⟨?_, hy⟩
          intro i hi
          have := h (i + 1) (by omega)
          rw [chain_succ, ht] at this
          exact this
      · rename_i ht
        constructor
        · intro h; exact absurd h (by simp)
        · rintro ⟨_, y, hy⟩
          rw [chain_succ] at hy
          split at hy
          · rename_i t' ht'; exact absurd ht' (ht t')
          · exact absurd hy (by simp)

theorem chain_lt {m : Mapper} (hm : ∀ a < m.n, ∀ b ∈ m.succ a, b < m.n) {b : Nat} (hb : b < m.n) {i x : Nat}
    (h : chain m b i = some x) : x < m.n := by
  induction i generalizing x with
  | zero => simp only [chain, Option.some.injEq] at h; omega
  | succ i ih =>
    rw [chain] at h
    split at h
    · exact absurd h (by simp)
    · rename_i y hy
      split at h
      · rename_i t ht
        simp only [Option.some.injEq] at h
        subst h
        exact hm y (ih hy) t (by simp [ht])
      · exact absurd h (by simp)

theorem chain_prefix {m : Mapper} {b i j : Nat} (hij : i ≤ j) {y : Nat} (h : chain m b j = some y) :
    ∃ x, chain m b i = some x := by
  obtain ⟨k, rfl⟩ := Nat.le.dest hij
  rw [chain_add] at h
  cases hi : chain m b i with
  | none => rw [hi] at h; exact absurd h (by simp)
  | some x => exact ⟨x, rfl⟩

/-- A chain as long as the graph runs in a cycle. -/
theorem chain_cycle {m : Mapper} (hm : ∀ a < m.n, ∀ b ∈ m.succ a, b < m.n) {b : Nat} (hb : b < m.n) {y : Nat}
    (h : chain m b m.n = some y) : ∃ i j, i < j ∧ j ≤ m.n ∧ chain m b i = chain m b j := by
  apply Classical.byContradiction
  intro hno
  have hget : ∀ i : Fin (m.n + 1), ∃ x, chain m b i.val = some x := fun i => chain_prefix (by omega) h
  have hlen := nodup_bound (n := m.n) (l := (List.finRange (m.n + 1)).map (fun i => (chain m b i.val).getD 0))
    (by
      rw [List.nodup_iff_pairwise_ne, List.pairwise_map]
      refine List.Pairwise.imp ?_ (List.pairwise_lt_finRange _)
      intro i j hij heq
      apply hno
      refine ⟨i.val, j.val, hij, by omega, ?_⟩
      obtain ⟨x, hx⟩ := hget i
      obtain ⟨x', hx'⟩ := hget j
      rw [hx, hx'] at heq ⊢
      simpa using heq)
    (by
      intro x hx
      obtain ⟨i, _, rfl⟩ := List.mem_map.1 hx
      obtain ⟨x, hx⟩ := hget i
      rw [hx]
      exact chain_lt hm hb hx)
  simp at hlen
  omega

theorem chain_forever {m : Mapper} (hm : ∀ a < m.n, ∀ b ∈ m.succ a, b < m.n) {b : Nat} (hb : b < m.n)
    (P : Nat → Prop) (hp : ∀ i < m.n + 1, ∃ x, chain m b i = some x ∧ P x) : ∀ i, ∃ x, chain m b i = some x ∧ P x := by
  obtain ⟨y, hy, _⟩ := hp m.n (by omega)
  obtain ⟨i, j, hij, hj, heq⟩ := chain_cycle hm hb hy
  intro t
  induction t using Nat.strongRecOn with
  | _ t ih =>
    by_cases ht : t < m.n + 1
    · exact hp t ht
    · obtain ⟨k, rfl⟩ : ∃ k, t = j + k := ⟨t - j, by omega⟩
      rw [chain_add, ← heq, ← chain_add]
      exact ih (i + k) (by omega)

/-! ## Union-find -/

theorem find_newKey (u : Uf) (x : Nat) : u.newKey.find x = u.find x := by
  unfold Uf.find Uf.newKey
  dsimp only
  rw [List.getD_eq_getElem?_getD, List.getD_eq_getElem?_getD]
  by_cases hx : x < u.root.length
  · rw [List.getElem?_append_left hx]
  · rw [List.getElem?_append_right (by omega), List.getElem?_eq_none (l := u.root) (by omega)]
    by_cases hx' : x = u.root.length
    · subst hx'; simp
    · rw [List.getElem?_eq_none (by simp; omega)]

theorem find_big (u : Uf) {x : Nat} (hx : u.root.length ≤ x) : u.find x = x := by
  unfold Uf.find
  rw [List.getD_eq_getElem?_getD, List.getElem?_eq_none hx]; rfl

theorem find_redirect (u : Uf) (old new r : Nat) {x : Nat} (hx : x < u.root.length) :
    (u.redirect old new r).find x = if u.find x = old then new else u.find x := by
  unfold Uf.find Uf.redirect
  dsimp only
  rw [List.getD_eq_getElem?_getD, List.getD_eq_getElem?_getD, List.getElem?_map, List.getElem?_eq_getElem hx]
  simp

theorem rank_newKey (u : Uf) (x : Nat) : u.newKey.rank.getD x 0 = u.rank.getD x 0 := by
  unfold Uf.newKey
  dsimp only
  rw [List.getD_eq_getElem?_getD, List.getD_eq_getElem?_getD]
  by_cases hx : x < u.rank.length
  · rw [List.getElem?_append_left hx]
  · rw [List.getElem?_append_right (by omega), List.getElem?_eq_none (l := u.rank) (by omega)]
    by_cases hx' : x = u.rank.length
    · subst hx'; simp
    · rw [List.getElem?_eq_none (by simp; omega)]

theorem rank_redirect (u : Uf) (old new r x : Nat) (hn : new < u.rank.length) :
    (u.redirect old new r).rank.getD x 0 = if x = new then r else u.rank.getD x 0 := by
  unfold Uf.redirect
  dsimp only
  rw [List.getD_eq_getElem?_getD, List.getD_eq_getElem?_getD, List.getElem?_set]
  by_cases hx : new = x
  · subst hx; simp [hn]
  · rw [if_neg hx, if_neg (fun h => hx h.symm)]

/-- Adding a fresh key to a class: it joins, unless it becomes the root. -/
theorem union_fresh (secondWins : Bool) (u : Uf) (hl : u.rank.length = u.root.length) {p : Nat}
    (hroot : ∀ x < u.root.length, u.find x < u.root.length) (hp : u.find p < u.root.length) :
    let n := u.root.length
    let u' := u.newKey.union secondWins p n
    let k := u.rank.getD (u.find p) 0
    (secondWins = true ∧ k = 0 →
      (∀ x < n, u'.find x = if u.find x = u.find p then n else u.find x) ∧ u'.find n = n ∧
      ∀ x, u'.rank.getD x 0 = if x = n then 1 else u.rank.getD x 0) ∧
    (¬(secondWins = true ∧ k = 0) → (∀ x < n, u'.find x = u.find x) ∧ u'.find n = u.find p ∧
      ∀ x, u'.rank.getD x 0 = if x = u.find p then max k 1 else u.rank.getD x 0) := by
  intro n u' k
  have hn1 : u.newKey.root.length = n + 1 := by simp [Uf.newKey, n]
  have hr1 : u.newKey.rank.length = n + 1 := by simp [Uf.newKey, n, hl]
  have hfn : u.find n = n := find_big u (Nat.le_refl _)
  have hkn : u.rank.getD n 0 = 0 := by
    rw [List.getD_eq_getElem?_getD, List.getElem?_eq_none (by omega)]; rfl
  have hne : ¬(u.find p = n) := by omega
  have hu : u' = if k > 0 then u.newKey.redirect n (u.find p) k
      else if secondWins then u.newKey.redirect (u.find p) n (k + 1)
      else u.newKey.redirect n (u.find p) (k + 1) := by
    show Uf.union secondWins u.newKey p n = _
    unfold Uf.union
    simp only [find_newKey, rank_newKey, hfn, hkn]
    rw [if_neg hne]
    by_cases hk : u.rank.getD (u.find p) 0 > 0
    · rw [if_pos hk, if_pos hk]
    · rw [if_neg hk, if_neg hk, if_neg (by omega)]
  constructor
  · rintro ⟨h1, h2⟩
    rw [hu, if_neg (by omega), if_pos h1]
    refine ⟨?_, ?_, ?_⟩
    · intro x hx
      rw [find_redirect _ _ _ _ (by omega), find_newKey]
    · rw [find_redirect _ _ _ _ (by omega), find_newKey, hfn, if_neg (fun h => hne h.symm)]
    · intro x
      rw [rank_redirect _ _ _ _ _ (by omega), rank_newKey, h2]
  · intro h
    have hred : ∃ r, r = max k 1 ∧ u' = u.newKey.redirect n (u.find p) r := by
      rw [hu]
      by_cases hk : k > 0
      · rw [if_pos hk]; exact ⟨k, by omega, rfl⟩
      · rw [if_neg hk]
        have h0 : secondWins = false := by
          cases secondWins with
          | false => rfl
          | true => exact absurd ⟨rfl, by omega⟩ h
        subst h0
        exact ⟨k + 1, by omega, by simp⟩
    obtain ⟨r, hr, hred⟩ := hred
    rw [hred]
    refine ⟨?_, ?_, ?_⟩
    · intro x hx
      rw [find_redirect _ _ _ _ (by omega), find_newKey]
      split
      · rename_i hxn
        exfalso
        have := hroot x hx
        omega
      · rfl
    · rw [find_redirect _ _ _ _ (by omega), find_newKey, hfn, if_pos rfl]
    · intro x
      rw [rank_redirect _ _ _ _ _ (by omega), rank_newKey, hr]

/-! ## Families -/

/-- `x` was opened by the caller. -/
def User (g : List (Nat × Nat)) (x : Nat) : Prop := ∀ q, (x, q) ∉ g

structure FamInv (secondWins : Bool) (n : Nat) (u : Uf) (sp : List (Nat × Spanner)) (g : List (Nat × Nat)) :
    Prop where
  lt : ∀ x < n, u.find x < n
  idem : ∀ x < n, u.find (u.find x) = u.find x
  pair : ∀ c p, (c, p) ∈ g → c < n ∧ p < n ∧ u.find c = u.find p ∧ User g p
  user : ∀ x, (∃ f, (x, f) ∈ sp) ↔ x < n ∧ User g x
  rank0 : ∀ x < n, u.rank.getD (u.find x) 0 = 0 → (∀ c, (c, x) ∉ g) ∧ User g x ∧
    ∀ y < n, u.find y = u.find x → y = x
  rankpos : ∀ x < n, u.rank.getD (u.find x) 0 ≠ 0 → (∃ c, (c, x) ∈ g) ∨ ¬User g x
  first : secondWins = false → ∀ x < n, User g x → u.find x = x
  second : secondWins = true → ∀ c p, (c, p) ∈ g → u.find p ≠ p
  common : ∀ x < n, ∀ y < n, u.find x = u.find y → ∃ r, r < n ∧ User g r ∧ Desc g r x ∧ Desc g r y

theorem Desc.mono {g g' : List (Nat × Nat)} (h : ∀ e ∈ g, e ∈ g') {r x : Nat} (hd : Desc g r x) : Desc g' r x := by
  induction hd with
  | refl => exact .refl
  | child _ hm ih => exact .child ih (h _ hm)

theorem famInv_newKey {secondWins : Bool} {u : Uf} {sp : List (Nat × Spanner)} {g : List (Nat × Nat)}
    (h : FamInv secondWins u.root.length u sp g) (hl : u.rank.length = u.root.length) (f : Spanner) :
    FamInv secondWins (u.root.length + 1) u.newKey (sp ++ [(u.root.length, f)]) g := by
  have hfn : u.find u.root.length = u.root.length := find_big u (Nat.le_refl _)
  have hun : User g u.root.length := by
    intro q hq
    have := (h.pair _ _ hq).1
    omega
  have hcn : ∀ c, (c, u.root.length) ∉ g := by
    intro q hq
    have := (h.pair _ _ hq).2.1
    omega
  have hkn : u.rank.getD u.root.length 0 = 0 := by
    rw [List.getD_eq_getElem?_getD, List.getElem?_eq_none (by omega)]; rfl
  have cases : ∀ x < u.root.length + 1, x < u.root.length ∨ x = u.root.length := fun x hx => by omega
  constructor
  · intro x hx
    rw [find_newKey]
    rcases cases x hx with hx | rfl
    · have := h.lt x hx; omega
    · omega
  · intro x hx
    rw [find_newKey, find_newKey]
    rcases cases x hx with hx | rfl
    · exact h.idem x hx
    · rw [hfn, hfn]
  · intro c p hcp
    obtain ⟨h1, h2, h3, h4⟩ := h.pair c p hcp
    rw [find_newKey, find_newKey]
    exact ⟨by omega, by omega, h3, h4⟩
  · intro x
    constructor
    · rintro ⟨f', hf'⟩
      rcases List.mem_append.1 hf' with hf' | hf'
      · obtain ⟨h1, h2⟩ := (h.user x).1 ⟨f', hf'⟩
        exact ⟨by omega, h2⟩
      · simp only [List.mem_singleton, Prod.mk.injEq] at hf'
        rw [hf'.1]
        exact ⟨by omega, hun⟩
    · rintro ⟨hx, hu⟩
      rcases cases x hx with hx | rfl
      · obtain ⟨f', hf'⟩ := (h.user x).2 ⟨hx, hu⟩
        exact ⟨f', List.mem_append.2 (.inl hf')⟩
      · exact ⟨f, by simp⟩
  · intro x hx hr
    rw [find_newKey, rank_newKey] at hr
    rcases cases x hx with hx | rfl
    · obtain ⟨h1, h2, h3⟩ := h.rank0 x hx hr
      refine ⟨h1, h2, ?_⟩
      intro y hy hxy
      rw [find_newKey, find_newKey] at hxy
      rcases cases y hy with hy | rfl
      · exact h3 y hy hxy
      · rw [hfn] at hxy
        have := h.lt x hx
        omega
    · refine ⟨hcn, hun, ?_⟩
      intro y hy hxy
      rw [find_newKey, find_newKey, hfn] at hxy
      rcases cases y hy with hy | rfl
      · have := h.lt y hy; omega
      · rfl
  · intro x hx hr
    rw [find_newKey, rank_newKey] at hr
    rcases cases x hx with hx | rfl
    · exact h.rankpos x hx hr
    · rw [hfn] at hr; exact absurd hkn hr
  · intro hf x hx hu
    rw [find_newKey]
    rcases cases x hx with hx | rfl
    · exact h.first hf x hx hu
    · exact hfn
  · intro hf c p hcp
    rw [find_newKey]
    exact h.second hf c p hcp
  · intro x hx y hy hxy
    rw [find_newKey, find_newKey] at hxy
    rcases cases x hx with hx | rfl <;> rcases cases y hy with hy | rfl
    · obtain ⟨r, h1, h2⟩ := h.common x hx y hy hxy
      exact ⟨r, by omega, h2⟩
    · rw [hfn] at hxy
      have := h.lt x hx; omega
    · rw [hfn] at hxy
      have := h.lt y hy; omega
    · exact ⟨_, by omega, hun, .refl, .refl⟩

theorem famInv_union {secondWins : Bool} {u : Uf} {sp : List (Nat × Spanner)} {g : List (Nat × Nat)}
    (h : FamInv secondWins u.root.length u sp g) (hl : u.rank.length = u.root.length) {p : Nat}
    (hp : p < u.root.length) (hup : User g p) :
    FamInv secondWins (u.root.length + 1) (u.newKey.union secondWins p u.root.length) sp
      (g ++ [(u.root.length, p)]) := by
  obtain ⟨hA, hB⟩ := union_fresh secondWins u hl h.lt (h.lt p hp)
  generalize hu' : u.newKey.union secondWins p u.root.length = u' at *
  have hun : User g u.root.length := by
    intro q hq
    have := (h.pair _ _ hq).1
    omega
  have hcn : ∀ c, (c, u.root.length) ∉ g := by
    intro q hq
    have := (h.pair _ _ hq).2.1
    omega
  have hkn : u.rank.getD u.root.length 0 = 0 := by
    rw [List.getD_eq_getElem?_getD, List.getElem?_eq_none (by omega)]; rfl
  have cases : ∀ x < u.root.length + 1, x < u.root.length ∨ x = u.root.length := fun x hx => by omega
  have hmem : ∀ c q, (c, q) ∈ g ++ [(u.root.length, p)] ↔ (c, q) ∈ g ∨ c = u.root.length ∧ q = p := by
    intro c q; simp
  have hunew : ∀ x, x ≠ u.root.length → (User (g ++ [(u.root.length, p)]) x ↔ User g x) := by
    intro x hx
    constructor
    · intro hh q hq; exact hh q ((hmem _ _).2 (.inl hq))
    · intro hh q hq
      rcases (hmem _ _).1 hq with hq | ⟨hq, _⟩
      · exact hh q hq
      · exact hx hq
  have hnu : ¬User (g ++ [(u.root.length, p)]) u.root.length := by
    intro hh; exact hh p ((hmem _ _).2 (.inr ⟨rfl, rfl⟩))
  have hdm : ∀ {r x}, Desc g r x → Desc (g ++ [(u.root.length, p)]) r x :=
    fun hd => hd.mono (fun e he => List.mem_append.2 (.inl he))
  have huser : ∀ x, (∃ f, (x, f) ∈ sp) ↔ x < u.root.length + 1 ∧ User (g ++ [(u.root.length, p)]) x := by
    intro x
    rw [h.user x]
    constructor
    · rintro ⟨h1, h2⟩; exact ⟨by omega, (hunew x (by omega)).2 h2⟩
    · rintro ⟨h1, h2⟩
      rcases cases x h1 with hx | rfl
      · exact ⟨hx, (hunew x (by omega)).1 h2⟩
      · exact absurd h2 hnu
  by_cases hk : secondWins = true ∧ u.rank.getD (u.find p) 0 = 0
  · obtain ⟨hf, hfn, hrk⟩ := hA hk
    obtain ⟨hpc, _, hiso⟩ := h.rank0 p hp hk.2
    have hpp : u.find p = p := hiso _ (h.lt p hp) (h.idem p hp)
    have hff : ∀ x < u.root.length, (x = p → u'.find x = u.root.length) ∧ (x ≠ p → u'.find x = u.find x) := by
      intro x hx
      rw [hf x hx]
      refine ⟨fun hh => by rw [hh, if_pos rfl], fun hh => if_neg (fun he => hh (hiso x hx he))⟩
    have hnp : ∀ x < u.root.length, x ≠ p → u.find x ≠ p := by
      intro x hx hxp he
      exact hxp (hiso x hx (he.trans hpp.symm))
    constructor
    · intro x hx
      rcases cases x hx with hx | rfl
      · by_cases hxp : x = p
        · rw [(hff x hx).1 hxp]; omega
        · rw [(hff x hx).2 hxp]; have := h.lt x hx; omega
      · rw [hfn]; omega
    · intro x hx
      rcases cases x hx with hx | rfl
      · by_cases hxp : x = p
        · rw [(hff x hx).1 hxp, hfn]
        · rw [(hff x hx).2 hxp, (hff _ (h.lt x hx)).2 (hnp x hx hxp), h.idem x hx]
      · rw [hfn, hfn]
    · intro c q hcq
      rcases (hmem _ _).1 hcq with hcq | ⟨rfl, rfl⟩
      · obtain ⟨h1, h2, h3, h4⟩ := h.pair c q hcq
        have hqp : q ≠ p := fun he => hpc c (he ▸ hcq)
        have hcp : c ≠ p := fun he => hup q (he ▸ hcq)
        exact ⟨by omega, by omega, by rw [(hff c h1).2 hcp, (hff q h2).2 hqp, h3], (hunew q (by omega)).2 h4⟩
      · exact ⟨by omega, by omega, by rw [hfn, (hff _ hp).1 rfl], (hunew _ (by omega)).2 hup⟩
    · exact huser
    · intro x hx hr
      rcases cases x hx with hx | rfl
      · by_cases hxp : x = p
        · rw [(hff x hx).1 hxp, hrk, if_pos rfl] at hr; exact absurd hr (by omega)
        · have hxl := h.lt x hx
          rw [(hff x hx).2 hxp, hrk, if_neg (by omega)] at hr
          obtain ⟨h1, h2, h3⟩ := h.rank0 x hx hr
          refine ⟨?_, (hunew x (by omega)).2 h2, ?_⟩
          · intro c hc
            rcases (hmem _ _).1 hc with hc | ⟨_, hc⟩
            · exact h1 c hc
            · exact hxp hc
          · intro y hy hxy
            rw [(hff x hx).2 hxp] at hxy
            rcases cases y hy with hy | rfl
            · by_cases hyp : y = p
              · rw [(hff y hy).1 hyp] at hxy; omega
              · rw [(hff y hy).2 hyp] at hxy
                exact h3 y hy hxy
            · rw [hfn] at hxy; omega
      · rw [hfn, hrk, if_pos rfl] at hr; exact absurd hr (by omega)
    · intro x hx hr
      rcases cases x hx with hx | rfl
      · by_cases hxp : x = p
        · exact .inl ⟨u.root.length, (hmem _ _).2 (.inr ⟨rfl, hxp⟩)⟩
        · have hxl := h.lt x hx
          rw [(hff x hx).2 hxp, hrk, if_neg (by omega)] at hr
          rcases h.rankpos x hx hr with ⟨c, hc⟩ | hc
          · exact .inl ⟨c, (hmem _ _).2 (.inl hc)⟩
          · exact .inr (fun hh => hc ((hunew x (by omega)).1 hh))
      · exact .inr hnu
    · intro hf0; rw [hk.1] at hf0; exact absurd hf0 (by simp)
    · intro _ c q hcq
      rcases (hmem _ _).1 hcq with hcq | ⟨rfl, rfl⟩
      · have hqp : q ≠ p := fun he => hpc c (he ▸ hcq)
        rw [(hff q (h.pair c q hcq).2.1).2 hqp]
        exact h.second hk.1 c q hcq
      · rw [(hff _ hp).1 rfl]; omega
    · intro x hx y hy hxy
      have hself : ∃ r, r < u.root.length + 1 ∧ User (g ++ [(u.root.length, p)]) r ∧
          Desc (g ++ [(u.root.length, p)]) r p ∧ Desc (g ++ [(u.root.length, p)]) r u.root.length :=
        ⟨p, by omega, (hunew p (by omega)).2 hup, .refl, .child .refl ((hmem _ _).2 (.inr ⟨rfl, rfl⟩))⟩
      rcases cases x hx with hx | rfl <;> rcases cases y hy with hy | rfl
      · by_cases hxp : x = p <;> by_cases hyp : y = p
        · obtain ⟨r, h1, h2, h3, _⟩ := hself
          rw [hxp, hyp]; exact ⟨r, h1, h2, h3, h3⟩
        · rw [(hff x hx).1 hxp, (hff y hy).2 hyp] at hxy
          have := h.lt y hy; omega
        · rw [(hff y hy).1 hyp, (hff x hx).2 hxp] at hxy
          have := h.lt x hx; omega
        · rw [(hff x hx).2 hxp, (hff y hy).2 hyp] at hxy
          obtain ⟨r, h1, h2, h3, h4⟩ := h.common x hx y hy hxy
          exact ⟨r, by omega, (hunew r (by omega)).2 h2, hdm h3, hdm h4⟩
      · by_cases hxp : x = p
        · rw [hxp]; exact hself
        · rw [(hff x hx).2 hxp, hfn] at hxy
          have := h.lt x hx; omega
      · by_cases hyp : y = p
        · obtain ⟨r, h1, h2, h3, h4⟩ := hself
          rw [hyp]; exact ⟨r, h1, h2, h4, h3⟩
        · rw [(hff y hy).2 hyp, hfn] at hxy
          have := h.lt y hy; omega
      · obtain ⟨r, h1, h2, _, h4⟩ := hself
        exact ⟨r, h1, h2, h4, h4⟩
  · obtain ⟨hf, hfn, hrk⟩ := hB hk
    have hpl := h.lt p hp
    constructor
    · intro x hx
      rcases cases x hx with hx | rfl
      · rw [hf x hx]; have := h.lt x hx; omega
      · rw [hfn]; omega
    · intro x hx
      rcases cases x hx with hx | rfl
      · rw [hf x hx, hf _ (h.lt x hx), h.idem x hx]
      · rw [hfn, hf _ hpl, h.idem p hp]
    · intro c q hcq
      rcases (hmem _ _).1 hcq with hcq | ⟨rfl, rfl⟩
      · obtain ⟨h1, h2, h3, h4⟩ := h.pair c q hcq
        exact ⟨by omega, by omega, by rw [hf c h1, hf q h2, h3], (hunew q (by omega)).2 h4⟩
      · exact ⟨by omega, by omega, by rw [hfn, hf _ hp], (hunew _ (by omega)).2 hup⟩
    · exact huser
    · intro x hx hr
      rcases cases x hx with hx | rfl
      · have hxl := h.lt x hx
        rw [hf x hx, hrk] at hr
        split at hr
        · exact absurd hr (by omega)
        · rename_i hne
          obtain ⟨h1, h2, h3⟩ := h.rank0 x hx hr
          refine ⟨?_, (hunew x (by omega)).2 h2, ?_⟩
          · intro c hc
            rcases (hmem _ _).1 hc with hc | ⟨_, rfl⟩
            · exact h1 c hc
            · exact hne rfl
          · intro y hy hxy
            rw [hf x hx] at hxy
            rcases cases y hy with hy | rfl
            · rw [hf y hy] at hxy; exact h3 y hy hxy
            · rw [hfn] at hxy; exact absurd hxy.symm hne
      · rw [hfn, hrk, if_pos rfl] at hr; exact absurd hr (by omega)
    · intro x hx hr
      rcases cases x hx with hx | rfl
      · rw [hf x hx, hrk] at hr
        split at hr
        · rename_i heq
          by_cases hxp : x = p
          · exact .inl ⟨u.root.length, (hmem _ _).2 (.inr ⟨rfl, hxp⟩)⟩
          · by_cases h0 : u.rank.getD (u.find x) 0 = 0
            · exact absurd ((h.rank0 x hx h0).2.2 p hp heq.symm).symm hxp
            · rcases h.rankpos x hx h0 with ⟨c, hc⟩ | hc
              · exact .inl ⟨c, (hmem _ _).2 (.inl hc)⟩
              · exact .inr (fun hh => hc ((hunew x (by omega)).1 hh))
        · rcases h.rankpos x hx hr with ⟨c, hc⟩ | hc
          · exact .inl ⟨c, (hmem _ _).2 (.inl hc)⟩
          · exact .inr (fun hh => hc ((hunew x (by omega)).1 hh))
      · exact .inr hnu
    · intro hf0 x hx hu
      rcases cases x hx with hx | rfl
      · rw [hf x hx]; exact h.first hf0 x hx ((hunew x (by omega)).1 hu)
      · exact absurd hu hnu
    · intro hs c q hcq
      rcases (hmem _ _).1 hcq with hcq | ⟨rfl, rfl⟩
      · rw [hf q (h.pair c q hcq).2.1]; exact h.second hs c q hcq
      · rw [hf _ hp]
        have h0 : u.rank.getD (u.find q) 0 ≠ 0 := fun h0 => hk ⟨hs, h0⟩
        rcases h.rankpos q hp h0 with ⟨c, hc⟩ | hc
        · exact h.second hs c q hc
        · exact absurd hup hc
    · intro x hx y hy hxy
      have toP : ∀ x < u.root.length, u.find x = u.find p → ∃ r, r < u.root.length + 1 ∧
          User (g ++ [(u.root.length, p)]) r ∧ Desc (g ++ [(u.root.length, p)]) r x ∧
          Desc (g ++ [(u.root.length, p)]) r u.root.length := by
        intro x hx hxp
        obtain ⟨r, h1, h2, h3, h4⟩ := h.common x hx p hp hxp
        exact ⟨r, by omega, (hunew r (by omega)).2 h2, hdm h3, .child (hdm h4) ((hmem _ _).2 (.inr ⟨rfl, rfl⟩))⟩
      rcases cases x hx with hx | rfl <;> rcases cases y hy with hy | rfl
      · rw [hf x hx, hf y hy] at hxy
        obtain ⟨r, h1, h2, h3, h4⟩ := h.common x hx y hy hxy
        exact ⟨r, by omega, (hunew r (by omega)).2 h2, hdm h3, hdm h4⟩
      · rw [hf x hx, hfn] at hxy
        exact toP x hx hxy
      · rw [hf y hy, hfn] at hxy
        obtain ⟨r, h1, h2, h3, h4⟩ := toP y hy hxy.symm
        exact ⟨r, h1, h2, h4, h3⟩
      · obtain ⟨r, h1, h2, _, h4⟩ := toP p hp rfl
        exact ⟨r, h1, h2, h4, h4⟩

theorem famInv_run {secondWins : Bool} {m : Mapper} (hm : m.Proper) {s : St} {g : List (Nat × Nat)}
    (h : Run secondWins m s g) : FamInv secondWins s.branches.length s.uf s.spanners g := by
  induction h with
  | make =>
    constructor <;> simp [St.make]
  | openScope _ h ih => obtain ⟨cur, _, _, rfl⟩ := openScope_eq h; exact ih
  | closeScope _ h ih => obtain ⟨_, _, rfl⟩ := closeScope_eq h; exact ih
  | @openBranch s g l f bid s' hr h ih =>
    have hi := inv_run hm hr
    obtain ⟨scope, sw, b, i, f', sp, _, _, _, _, hbid, _, hsp, rfl⟩ := mkBranch_ok h
    obtain ⟨rfl, rfl⟩ := hsp f rfl
    rw [← hi.keys.1] at ih
    have := famInv_newKey ih (hi.keys.2.trans hi.keys.1.symm) f'
    rw [hi.keys.1] at this
    subst hbid
    show FamInv secondWins (s.branches ++ [_]).length s.uf.newKey (s.spanners ++ [(s.branches.length, f')]) g
    rw [List.length_append]
    exact this
  | closeBranch _ _ h ih => obtain ⟨b, _, rfl⟩ := closeBranch_eq h; exact ih
  | @child s g l p loc s' hr hfs h ih =>
    have hi := inv_run hm hr
    obtain ⟨child, s1, bp, bc, h1, h2, h3, rfl⟩ := openChild_ok h
    have hi1 := inv_mkBranch hm hi h1
    obtain ⟨scope, sw, b, i, f', sp, _, _, _, _, hbid, hsp, _, rfl⟩ := mkBranch_ok h1
    obtain ⟨rfl, e, he, _⟩ := hsp p rfl
    have hem := List.mem_of_find?_eq_some he
    have hep := List.find?_some he
    simp only [decide_eq_true_eq] at hep
    obtain ⟨e1, e2⟩ := e
    dsimp only at hep
    subst hep
    obtain ⟨hp, hup⟩ := (ih.user e1).1 ⟨e2, hem⟩
    rw [(hi1.branch _ _ h2).1, (hi1.branch _ _ h3).1, hbid]
    rw [← hi.keys.1] at ih hp
    have := famInv_union ih (hi.keys.2.trans hi.keys.1.symm) hp hup
    rw [hi.keys.1] at this
    show FamInv secondWins (s.branches ++ [_]).length (s.uf.newKey.union secondWins e1 s.branches.length) s.spanners _
    rw [List.length_append]
    exact this
  | linear span _ h _ ih => exact ih

end Verif.Segments
