import Verif.Walk.Region
/-!
# The shape of structured code

What the blocks of structured code look like when they are numbered in the order of the source, with the successors of
each, and that all its parts are regions.
-/
namespace Verif.Walk

open Verif.Cfg Verif.Segments Verif.Graph

mutual
/-- The blocks of a list of statements. -/
inductive Shape
  /-- the last block -/
  | fin
  /-- a block followed by the next one -/
  | line (r : Shape)
  /-- a block that ends in a switch, its arms, and what follows -/
  | fork (as : Limbs) (r : Shape)
  /-- a loop: a block before it, its head, `c` blocks that evaluate the condition, a switch whose first target leaves the
  loop, through a block with a false edge if `hd`, then the body, which goes back to the head, and what follows -/
  | loop (c : Nat) (hd : Bool) (t r : Shape)
/-- The arms of a switch; `hd` says whether the arm begins with a block that ends in a false edge to the next one. -/
inductive Limbs
  | nil
  | cons (hd : Bool) (f : Shape) (rest : Limbs)
end

mutual
/-- The number of blocks. -/
def Shape.size : Shape → Nat
  | .fin => 1
  | .line r => r.size + 1
  | .fork as r => as.size + r.size + 1
  | .loop c hd t r => 3 + c + hd.toNat + t.size + r.size
def Limbs.size : Limbs → Nat
  | .nil => 0
  | .cons hd f rest => hd.toNat + f.size + rest.size
end

/-- The same code with other code in the place of its last block. -/
def Shape.plug : Shape → Shape → Shape
  | .fin, s => s
  | .line r, s => .line (r.plug s)
  | .fork as r, s => .fork as (r.plug s)
  | .loop c hd t r, s => .loop c hd t (r.plug s)

theorem Shape.plug_fin : ∀ s : Shape, s.plug .fin = s
  | .fin => rfl
  | .line r => by rw [Shape.plug, Shape.plug_fin r]
  | .fork as r => by rw [Shape.plug, Shape.plug_fin r]
  | .loop c hd t r => by rw [Shape.plug, Shape.plug_fin r]

/-- The arms with the numbers of their first blocks. -/
def Limbs.parts : Limbs → Nat → List (Nat × Bool × Shape)
  | .nil, _ => []
  | .cons hd f rest, k => (k, hd, f) :: rest.parts (k + hd.toNat + f.size)

/-- The first block of the first arm, if there is one. -/
def Limbs.next : Limbs → Nat → List Nat
  | .nil, _ => []
  | .cons _ _ _, k => [k]

mutual
/-- The successors of the blocks, if the first one has the number `k` and those of the last one are `xs`. -/
def Shape.Fits (succ : Nat → List Nat) : Shape → Nat → List Nat → Prop
  | .fin, k, xs => succ k = xs
  | .line r, k, xs => succ k = [k + 1] ∧ r.Fits succ (k + 1) xs
  | .fork as r, k, xs => succ k = (as.parts (k + 1)).map (·.1) ∧ 2 ≤ (as.parts (k + 1)).length ∧
      as.Fits succ (k + 1) (k + 1 + as.size) ∧ r.Fits succ (k + 1 + as.size) xs
  | .loop c hd t r, k, xs =>
      (∀ i ≤ c + 1, succ (k + i) = [k + i + 1]) ∧
      succ (k + 2 + c) = (if hd then [k + 3 + c, k + 3 + c + 1] else [k + 3 + c + hd.toNat + t.size, k + 3 + c]) ∧
      (hd = true → succ (k + 3 + c) = [k + 3 + c + hd.toNat + t.size, k + 3 + c + 1]) ∧
      t.Fits succ (k + 3 + c + hd.toNat) [k + 1] ∧ r.Fits succ (k + 3 + c + hd.toNat + t.size) xs
/-- The same for arms, which are followed by the block `j`. -/
def Limbs.Fits (succ : Nat → List Nat) : Limbs → Nat → Nat → Prop
  | .nil, _, _ => True
  | .cons hd f rest, k, j => (hd = true → succ k = (k + 1) :: rest.next (k + hd.toNat + f.size)) ∧
      f.Fits succ (k + hd.toNat) [j] ∧ rest.Fits succ (k + hd.toNat + f.size) j
end

theorem Shape.pos : ∀ s : Shape, 0 < s.size
  | .fin => by simp [Shape.size]
  | .line _ => by simp [Shape.size]
  | .fork _ _ => by simp [Shape.size]
  | .loop _ _ _ _ => by simp only [Shape.size]; omega

/-! ## The arms -/

theorem Limbs.bounds : ∀ {as : Limbs} {k i h : Nat} {hd : Bool} {f : Shape}, (as.parts k)[i]? = some (h, hd, f) →
    k ≤ h ∧ h + hd.toNat + f.size ≤ k + as.size
  | .nil, _, _, _, _, _, he => by simp [Limbs.parts] at he
  | .cons hd' f' rest, k, 0, h, hd, f, he => by
    simp only [Limbs.parts, List.getElem?_cons_zero, Option.some.injEq, Prod.mk.injEq] at he
    obtain ⟨rfl, rfl, rfl⟩ := he
    simp only [Limbs.size]
    omega
  | .cons hd' f' rest, k, i + 1, h, hd, f, he => by
    have := Limbs.bounds (as := rest) (by simpa [Limbs.parts] using he)
    simp only [Limbs.size]
    omega

theorem Limbs.ordered : ∀ {as : Limbs} {k i i' h h' : Nat} {hd hd' : Bool} {f f' : Shape},
    (as.parts k)[i]? = some (h, hd, f) → (as.parts k)[i']? = some (h', hd', f') → i < i' → h + hd.toNat + f.size ≤ h'
  | .nil, _, _, _, _, _, _, _, _, _, he, _, _ => by simp [Limbs.parts] at he
  | .cons _ _ rest, k, 0, i' + 1, h, h', hd, hd', f, f', he, he', _ => by
    simp only [Limbs.parts, List.getElem?_cons_zero, Option.some.injEq, Prod.mk.injEq] at he
    obtain ⟨rfl, rfl, rfl⟩ := he
    exact (Limbs.bounds (as := rest) (by simpa [Limbs.parts] using he')).1
  | .cons _ _ rest, k, i + 1, i' + 1, h, h', hd, hd', f, f', he, he', hi =>
    Limbs.ordered (as := rest) (by simpa [Limbs.parts] using he) (by simpa [Limbs.parts] using he') (by omega)
  | .cons _ _ _, _, _, 0, _, _, _, _, _, _, _, _, hi => by omega

theorem Limbs.cover : ∀ {as : Limbs} {k y : Nat}, k ≤ y → y < k + as.size →
    ∃ (i h : Nat) (hd : Bool) (f : Shape), (as.parts k)[i]? = some (h, hd, f) ∧ h ≤ y ∧ y < h + hd.toNat + f.size
  | .nil, _, _, h1, h2 => by simp only [Limbs.size] at h2; omega
  | .cons hd f rest, k, y, h1, h2 => by
    by_cases hy : y < k + hd.toNat + f.size
    · exact ⟨0, k, hd, f, rfl, h1, hy⟩
    · simp only [Limbs.size] at h2
      obtain ⟨i, h, hd', f', e1, e2, e3⟩ := Limbs.cover (as := rest) (k := k + hd.toNat + f.size) (y := y) (by omega)
        (by omega)
      exact ⟨i + 1, h, hd', f', by rw [Limbs.parts, List.getElem?_cons_succ]; exact e1, e2, e3⟩

theorem Limbs.fits {succ : Nat → List Nat} : ∀ {as : Limbs} {k j i h : Nat} {hd : Bool} {f : Shape},
    as.Fits succ k j → (as.parts k)[i]? = some (h, hd, f) → f.Fits succ (h + hd.toNat) [j] ∧
      (hd = true → h + 1 ∈ succ h ∧ ∀ v ∈ succ h, v = h + 1 ∨
        (v = h + hd.toNat + f.size ∧ ∃ hd' f', (as.parts k)[i + 1]? = some (v, hd', f')))
  | .nil, _, _, _, _, _, _, _, he => by simp [Limbs.parts] at he
  | .cons hd' f' rest, k, j, 0, h, hd, f, hf, he => by
    simp only [Limbs.parts, List.getElem?_cons_zero, Option.some.injEq, Prod.mk.injEq] at he
    obtain ⟨rfl, rfl, rfl⟩ := he
    rw [Limbs.Fits] at hf
    refine ⟨hf.2.1, fun hh => ?_⟩
    rw [hf.1 hh]
    refine ⟨List.mem_cons_self, fun v hv => ?_⟩
    rcases List.mem_cons.1 hv with hv | hv
    · exact .inl hv
    · right
      cases rest with
      | nil => simp [Limbs.next] at hv
      | cons hd'' f'' rest' =>
        simp only [Limbs.next, List.mem_singleton] at hv
        exact ⟨hv, hd'', f'', by rw [hv]; rfl⟩
  | .cons hd' f' rest, k, j, i + 1, h, hd, f, hf, he => by
    rw [Limbs.Fits] at hf
    obtain ⟨h1, h2⟩ := Limbs.fits hf.2.2 (i := i) (by simpa [Limbs.parts] using he)
    exact ⟨h1, fun hh => ⟨(h2 hh).1, fun v hv => by simpa [Limbs.parts] using (h2 hh).2 v hv⟩⟩

/-! ## Where the blocks lead -/

mutual
theorem Shape.edges {succ : Nat → List Nat} : ∀ {s : Shape} {k : Nat} {xs : List Nat}, s.Fits succ k xs →
    ∀ {u v : Nat}, In k (k + s.size) u → v ∈ succ u →
      In (k + 1) (k + s.size) v ∨ (u + 1 = k + s.size ∧ v ∈ xs)
  | .fin, k, xs, hf, u, v, hu, hv => by
    rw [Shape.Fits] at hf
    simp only [In, Shape.size] at hu ⊢
    have : u = k := by omega
    subst this
    rw [hf] at hv
    exact .inr ⟨rfl, hv⟩
  | .line r, k, xs, hf, u, v, hu, hv => by
    rw [Shape.Fits] at hf
    have hp := r.pos
    by_cases h : u = k
    · subst h
      rw [hf.1, List.mem_singleton] at hv
      subst hv
      simp only [In, Shape.size] at hu ⊢
      omega
    · rcases Shape.edges hf.2 (u := u) (v := v) (by simp only [In, Shape.size] at hu ⊢; omega) hv with this | ⟨this, hx⟩
      · left
        simp only [In, Shape.size] at this ⊢
        omega
      · exact .inr ⟨by simp only [Shape.size]; omega, hx⟩
  | .fork as r, k, xs, hf, u, v, hu, hv => by
    rw [Shape.Fits] at hf
    have hp := r.pos
    obtain ⟨f1, _, f2, f3⟩ := hf
    by_cases h : u = k
    · subst h
      rw [f1] at hv
      obtain ⟨⟨h, hd, f⟩, hm, rfl⟩ := List.mem_map.1 hv
      obtain ⟨i, hi⟩ := List.mem_iff_getElem?.1 hm
      have := Limbs.bounds hi
      have := f.pos
      simp only [In, Shape.size] at hu ⊢
      omega
    · by_cases hu' : u < k + 1 + as.size
      · have := Limbs.edges f2 (u := u) (v := v) (by simp only [In] at hu ⊢; omega) hv
        simp only [In, Shape.size] at this ⊢
        omega
      · rcases Shape.edges f3 (u := u) (v := v) (by simp only [In, Shape.size] at hu ⊢; omega) hv with this | ⟨this, hx⟩
        · left
          simp only [In, Shape.size] at this ⊢
          omega
        · exact .inr ⟨by simp only [Shape.size]; omega, hx⟩
  | .loop c hd t r, k, xs, hf, u, v, hu, hv => by
    rw [Shape.Fits] at hf
    have hp := r.pos
    have hpt := t.pos
    obtain ⟨f1, f2, f3, f4, f5⟩ := hf
    have hB : hd.toNat = 0 ∨ hd.toNat = 1 := by cases hd <;> simp
    by_cases h1 : u ≤ k + c + 1
    · have := f1 (u - k) (by omega)
      rw [show k + (u - k) = u by simp only [In] at hu; omega] at this
      rw [this, List.mem_singleton] at hv
      simp only [In, Shape.size] at hu ⊢
      omega
    · by_cases h2 : u = k + 2 + c
      · rw [h2, f2] at hv
        left
        cases hd with
        | true =>
          simp only [if_pos, List.mem_cons, List.not_mem_nil, or_false] at hv
          simp only [In, Shape.size, Bool.toNat_true] at hu ⊢
          omega
        | false =>
          simp only [Bool.false_eq_true, if_false, List.mem_cons, List.not_mem_nil, or_false, Bool.toNat_false] at hv
          simp only [In, Shape.size, Bool.toNat_false] at hu ⊢
          omega
      · by_cases h3 : u < k + 3 + c + hd.toNat
        · have hh : hd = true := by
            cases hd with
            | true => rfl
            | false => simp only [Bool.toNat_false] at h3; omega
          subst hh
          simp only [Bool.toNat_true] at h3
          have hu' : u = k + 3 + c := by omega
          rw [hu', f3 rfl] at hv
          simp only [List.mem_cons, List.not_mem_nil, or_false, Bool.toNat_true] at hv
          left
          simp only [In, Shape.size, Bool.toNat_true] at hu ⊢
          omega
        · by_cases h4 : u < k + 3 + c + hd.toNat + t.size
          · have := Shape.edges f4 (u := u) (v := v) (by simp only [In] at hu ⊢; omega) hv
            left
            simp only [In, Shape.size, List.mem_singleton] at this ⊢
            omega
          · rcases Shape.edges f5 (u := u) (v := v) (by simp only [In, Shape.size] at hu ⊢; omega) hv with this | ⟨this, hx⟩
            · left
              simp only [In, Shape.size] at this ⊢
              omega
            · exact .inr ⟨by simp only [Shape.size]; omega, hx⟩
theorem Limbs.edges {succ : Nat → List Nat} : ∀ {as : Limbs} {k j : Nat}, as.Fits succ k j →
    ∀ {u v : Nat}, In k (k + as.size) u → v ∈ succ u → In (k + 1) (k + as.size) v ∨ v = j
  | .nil, k, j, _, u, v, hu, _ => by simp only [In, Limbs.size] at hu; omega
  | .cons hd f rest, k, j, hf, u, v, hu, hv => by
    rw [Limbs.Fits] at hf
    have hp := f.pos
    obtain ⟨f1, f2, f3⟩ := hf
    by_cases h1 : u < k + hd.toNat
    · have hh : hd = true := by
        cases hd with
        | true => rfl
        | false => simp only [In, Bool.toNat_false] at h1 hu; omega
      subst hh
      have hu' : u = k := by simp only [In, Bool.toNat_true] at h1 hu; omega
      rw [hu', f1 rfl] at hv
      left
      rcases List.mem_cons.1 hv with rfl | hv
      · simp only [In, Limbs.size, Bool.toNat_true]
        omega
      · cases rest with
        | nil => simp [Limbs.next] at hv
        | cons hd' f' rest' =>
          have := f'.pos
          simp only [Limbs.next, List.mem_singleton] at hv
          simp only [In, Limbs.size, Bool.toNat_true] at hv ⊢
          omega
    · by_cases h2 : u < k + hd.toNat + f.size
      · have := Shape.edges f2 (u := u) (v := v) (by simp only [In] at hu ⊢; omega) hv
        simp only [In, Limbs.size, List.mem_singleton] at this ⊢
        omega
      · have := Limbs.edges f3 (u := u) (v := v) (by simp only [In, Limbs.size] at hu ⊢; omega) hv
        simp only [In, Limbs.size] at this ⊢
        omega
end

theorem Shape.out {succ : Nat → List Nat} {s : Shape} {k : Nat} {xs : List Nat} (h : s.Fits succ k xs) {u v : Nat}
    (hv : v ∈ succ u) (hu : In k (k + s.size) u) (hn : ¬ In k (k + s.size) v) : u = k + s.size - 1 := by
  rcases Shape.edges h hu hv with h1 | h1
  · exact absurd ⟨by have := h1.1; omega, h1.2⟩ hn
  · omega

/-- The last block leads to what follows. -/
theorem Shape.last {succ : Nat → List Nat} : ∀ {s : Shape} {k : Nat} {xs : List Nat}, s.Fits succ k xs →
    succ (k + s.size - 1) = xs
  | .fin, k, xs, hf => by rw [Shape.Fits] at hf; exact hf
  | .line r, k, xs, hf => by
    rw [Shape.Fits] at hf
    have := Shape.last hf.2
    have hp := r.pos
    rw [← this]
    congr 1
    simp only [Shape.size]
    omega
  | .fork as r, k, xs, hf => by
    rw [Shape.Fits] at hf
    have := Shape.last hf.2.2.2
    have hp := r.pos
    rw [← this]
    congr 1
    simp only [Shape.size]
    omega
  | .loop c hd t r, k, xs, hf => by
    rw [Shape.Fits] at hf
    have := Shape.last hf.2.2.2.2
    have hp := r.pos
    rw [← this]
    congr 1
    simp only [Shape.size]
    omega

/-! ## Ways within -/

/-- Every block is reached from the first one, and reaches the last one, within the code. -/
def Shape.Inside (succ : Nat → List Nat) (s : Shape) (k : Nat) : Prop :=
  ∀ y, In k (k + s.size) y → Via succ (In k (k + s.size)) k y ∧ Via succ (In k (k + s.size)) y (k + s.size - 1)

/-- The blocks before the switch of a loop are passed one after the other. -/
theorem straight {succ : Nat → List Nat} {k n : Nat} (h : ∀ i < n, succ (k + i) = [k + i + 1]) :
    ∀ m, ∀ i, i + m ≤ n → Via succ (In (k + i) (k + i + m + 1)) (k + i) (k + i + m) := by
  intro m
  induction m with
  | zero => exact fun i _ => .refl ⟨Nat.le_refl _, by omega⟩
  | succ m ih =>
    intro i hi
    have h1 := ih (i + 1) (by omega)
    refine .step ⟨Nat.le_refl _, by omega⟩ (x := k + i + 1) (by rw [h i (by omega)]; exact List.mem_cons_self) ?_
    have : k + (i + 1) + m = k + i + (m + 1) := by omega
    rw [this, show k + (i + 1) = k + i + 1 by omega] at h1
    exact h1.mono fun y hy => by unfold In at *; omega

mutual
theorem Shape.inside {succ : Nat → List Nat} : ∀ {s : Shape} {k : Nat} {xs : List Nat}, s.Fits succ k xs →
    s.Inside succ k
  | .fin, k, xs, hf => by
    intro y hy
    simp only [In, Shape.size] at hy
    have : y = k := by omega
    subst this
    exact ⟨.refl ⟨Nat.le_refl _, by simp [Shape.size]⟩, .refl ⟨by simp [Shape.size], by simp [Shape.size]⟩⟩
  | .line r, k, xs, hf => by
    rw [Shape.Fits] at hf
    have hi := Shape.inside hf.2
    have hp := r.pos
    have hsub : ∀ z, In (k + 1) (k + 1 + r.size) z → In k (k + (Shape.line r).size) z := by
      intro z hz
      simp only [In, Shape.size] at hz ⊢
      omega
    have hk : In k (k + (Shape.line r).size) k := by simp only [In, Shape.size]; omega
    have he : k + (Shape.line r).size - 1 = k + 1 + r.size - 1 := by simp only [Shape.size]; omega
    have hm : k + 1 ∈ succ k := by rw [hf.1]; exact List.mem_cons_self
    rw [Shape.Inside, he]
    intro y hy
    by_cases h : y = k
    · subst h
      exact ⟨.refl hk, .step hk hm ((hi (y + 1) ⟨Nat.le_refl _, by omega⟩).2.mono hsub)⟩
    · have hy' : In (k + 1) (k + 1 + r.size) y := by simp only [In, Shape.size] at hy ⊢; omega
      exact ⟨.step hk hm ((hi y hy').1.mono hsub), (hi y hy').2.mono hsub⟩
  | .fork as r, k, xs, hf => by
    rw [Shape.Fits] at hf
    obtain ⟨f1, f0, f2, f3⟩ := hf
    have hi := Shape.inside f3
    have ha := Limbs.insides f2
    have hp := r.pos
    have hk : In k (k + (Shape.fork as r).size) k := by simp only [In, Shape.size]; omega
    have he : k + (Shape.fork as r).size - 1 = k + 1 + as.size + r.size - 1 := by simp only [Shape.size]; omega
    have hsub : ∀ z, In (k + 1 + as.size) (k + 1 + as.size + r.size) z → In k (k + (Shape.fork as r).size) z := by
      intro z hz
      simp only [In, Shape.size] at hz ⊢
      omega
    have harm : ∀ {i h : Nat} {hd : Bool} {f : Shape}, (as.parts (k + 1))[i]? = some (h, hd, f) → ∀ z, In h (h + hd.toNat + f.size) z →
        In k (k + (Shape.fork as r).size) z := by
      intro i h hd f hpt z hz
      have := Limbs.bounds hpt
      simp only [In, Shape.size] at hz ⊢
      omega
    -- from the join on
    have hj : Via succ (In k (k + (Shape.fork as r).size)) (k + 1 + as.size) (k + 1 + as.size + r.size - 1) :=
      (hi _ ⟨Nat.le_refl _, by omega⟩).2.mono hsub
    -- through an arm
    have arm : ∀ {i h : Nat} {hd : Bool} {f : Shape}, (as.parts (k + 1))[i]? = some (h, hd, f) → ∀ y, In h (h + hd.toNat + f.size) y →
        Via succ (In k (k + (Shape.fork as r).size)) h y ∧
        Via succ (In k (k + (Shape.fork as r).size)) y (k + 1 + as.size) := by
      intro i h hd f hpt y hy
      have hpf := f.pos
      obtain ⟨g1, g2⟩ := Limbs.fits f2 hpt
      have hin := ha i h hd f hpt
      have hlast : Via succ (In k (k + (Shape.fork as r).size)) (h + hd.toNat) (k + 1 + as.size) := by
        refine ((hin _ ⟨Nat.le_refl _, by omega⟩).2.mono fun z hz => harm hpt z ⟨by have := hz.1; omega, hz.2⟩).snoc
          (c := k + 1 + as.size) ?_ (hsub _ ⟨Nat.le_refl _, by omega⟩)
        rw [Shape.last g1]
        exact List.mem_cons_self
      by_cases hyh : h + hd.toNat ≤ y
      · have hy' : In (h + hd.toNat) (h + hd.toNat + f.size) y := ⟨hyh, hy.2⟩
        have b1 := (hin y hy').1.mono fun z hz => harm hpt z ⟨by have := hz.1; omega, hz.2⟩
        have b2 := (hin y hy').2.mono fun z hz => harm hpt z ⟨by have := hz.1; omega, hz.2⟩
        refine ⟨?_, ?_⟩
        · cases hd with
          | false => exact b1
          | true => exact .step (harm hpt h ⟨Nat.le_refl _, by omega⟩) (g2 rfl).1 b1
        · refine b2.snoc (c := k + 1 + as.size) ?_ (hsub _ ⟨Nat.le_refl _, by omega⟩)
          rw [Shape.last g1]
          exact List.mem_cons_self
      · cases hd with
        | false => exact absurd hy.1 (by simpa using hyh)
        | true =>
          have : y = h := by have := hy.1; simp only [Bool.toNat_true] at hyh; omega
          subst this
          have hin := harm hpt y ⟨Nat.le_refl _, by omega⟩
          exact ⟨.refl hin, .step hin (g2 rfl).1 hlast⟩
    have enter : ∀ {i h : Nat} {hd : Bool} {f : Shape}, (as.parts (k + 1))[i]? = some (h, hd, f) → h ∈ succ k := by
      intro i h hd f hpt
      rw [f1]
      exact List.mem_map.2 ⟨_, List.mem_of_getElem? hpt, rfl⟩
    rw [Shape.Inside, he]
    intro y hy
    have hjoin : Via succ (In k (k + (Shape.fork as r).size)) k (k + 1 + as.size) := by
      obtain ⟨⟨h, hd, f⟩, hpt⟩ : ∃ x, (as.parts (k + 1))[0]? = some x := ⟨_, List.getElem?_eq_getElem (by omega)⟩
      have hpf := f.pos
      exact .step hk (enter hpt) (arm hpt h ⟨Nat.le_refl _, by omega⟩).2
    by_cases h : y = k
    · subst h
      exact ⟨.refl hk, hjoin.trans hj⟩
    · by_cases h2 : y < k + 1 + as.size
      · obtain ⟨i, h', hd, f, hpt, e1, e2⟩ := Limbs.cover (as := as) (k := k + 1) (y := y)
          (by have := hy.1; omega) h2
        obtain ⟨b1, b2⟩ := arm hpt y ⟨e1, e2⟩
        exact ⟨.step hk (enter hpt) b1, b2.trans hj⟩
      · have hy' : In (k + 1 + as.size) (k + 1 + as.size + r.size) y := by simp only [In, Shape.size] at hy ⊢; omega
        exact ⟨hjoin.trans ((hi y hy').1.mono hsub), (hi y hy').2.mono hsub⟩
  | .loop c hd t r, k, xs, hf => by
    rw [Shape.Fits] at hf
    obtain ⟨f1, f2, f3, f4, f5⟩ := hf
    have hit := Shape.inside f4
    have hir := Shape.inside f5
    have hp := r.pos
    have hpt := t.pos
    have hsz : k + (Shape.loop c hd t r).size = k + 3 + c + hd.toNat + t.size + r.size := by
      simp only [Shape.size]; omega
    rw [Shape.Inside, hsz]
    generalize hP : In k (k + 3 + c + hd.toNat + t.size + r.size) = P
    have hin : ∀ z, k ≤ z → z < k + 3 + c + hd.toNat + t.size + r.size → P z := by
      intro z h1 h2
      rw [← hP]
      exact ⟨h1, h2⟩
    have hst : ∀ m i, i + m ≤ c + 2 → Via succ P (k + i) (k + i + m) := by
      intro m i hi
      refine (straight (k := k) (n := c + 2) (fun i hi => f1 i (by omega)) m i hi).mono fun z hz => ?_
      have := hz.1
      have := hz.2
      exact hin z (by omega) (by omega)
    have toA : ∀ i ≤ c + 2, Via succ P (k + i) (k + 2 + c) := by
      intro i hi
      have := hst (c + 2 - i) i (by omega)
      rw [show k + i + (c + 2 - i) = k + 2 + c by omega] at this
      exact this
    have hbody : Via succ P (k + 2 + c) (k + 3 + c + hd.toNat) := by
      refine .step (hin _ (by omega) (by omega)) (x := k + 3 + c + hd.toNat) ?_ (.refl (hin _ (by omega) (by omega)))
      rw [f2]
      cases hd <;> simp
    have hexit : Via succ P (k + 2 + c) (k + 3 + c + hd.toNat + t.size) := by
      cases hd with
      | false =>
        refine .step (hin _ (by omega) (by omega)) (x := k + 3 + c + Bool.toNat false + t.size) ?_ (.refl (hin _ (by omega) (by omega)))
        rw [f2]
        simp
      | true =>
        refine .step (hin _ (by omega) (by omega)) (x := k + 3 + c) ?_
          (.step (hin _ (by omega) (by omega)) (x := k + 3 + c + Bool.toNat true + t.size) ?_ (.refl (hin _ (by omega) (by omega))))
        · rw [f2]
          simp
        · rw [f3 rfl]
          simp
    have hafter : Via succ P (k + 3 + c + hd.toNat + t.size) (k + 3 + c + hd.toNat + t.size + r.size - 1) :=
      (hir _ ⟨Nat.le_refl _, by omega⟩).2.mono fun z hz => hin z (by have := hz.1; omega) hz.2
    have hend : Via succ P (k + 2 + c) (k + 3 + c + hd.toNat + t.size + r.size - 1) := hexit.trans hafter
    have h0 : Via succ P k (k + 2 + c) := toA 0 (by omega)
    intro y hy
    rw [← hP] at hy
    by_cases h1 : y ≤ k + 2 + c
    · have hyk : y = k + (y - k) := by have := hy.1; omega
      have b1 := hst (y - k) 0 (by omega)
      have b2 := toA (y - k) (by omega)
      rw [← hyk] at b2
      rw [show k + 0 + (y - k) = y by have := hy.1; omega] at b1
      exact ⟨b1, b2.trans hend⟩
    · by_cases h2 : y < k + 3 + c + hd.toNat
      · have hh : hd = true := by
          cases hd with
          | true => rfl
          | false => simp only [Bool.toNat_false] at h2; omega
        subst hh
        have hy' : y = k + 3 + c := by simp only [Bool.toNat_true] at h2; omega
        subst hy'
        have hm := hin (k + 3 + c) (by omega) (by omega)
        refine ⟨h0.trans (.step (hin _ (by omega) (by omega)) (x := k + 3 + c) ?_ (.refl hm)), .step hm ?_ hafter⟩
        · rw [f2]
          simp
        · rw [f3 rfl]
          simp
      · by_cases h3 : y < k + 3 + c + hd.toNat + t.size
        · have hy' : In (k + 3 + c + hd.toNat) (k + 3 + c + hd.toNat + t.size) y := ⟨by omega, h3⟩
          have b1 : Via succ P (k + 3 + c + hd.toNat) y :=
            (hit y hy').1.mono fun z hz => hin z (by have := hz.1; omega) (by have := hz.2; omega)
          have b2 : Via succ P y (k + 3 + c + hd.toNat + t.size - 1) :=
            (hit y hy').2.mono fun z hz => hin z (by have := hz.1; omega) (by have := hz.2; omega)
          refine ⟨(h0.trans hbody).trans b1, ?_⟩
          refine (b2.snoc (c := k + 1) ?_ (hin _ (by omega) (by omega))).trans ((toA 1 (by omega)).trans hend)
          rw [Shape.last f4]
          exact List.mem_cons_self
        · have hy' : In (k + 3 + c + hd.toNat + t.size) (k + 3 + c + hd.toNat + t.size + r.size) y := ⟨by omega, hy.2⟩
          exact ⟨(h0.trans hexit).trans ((hir y hy').1.mono fun z hz => hin z (by have := hz.1; omega) hz.2),
            (hir y hy').2.mono fun z hz => hin z (by have := hz.1; omega) hz.2⟩
theorem Limbs.insides {succ : Nat → List Nat} : ∀ {as : Limbs} {k j : Nat}, as.Fits succ k j →
    ∀ (i h : Nat) (hd : Bool) (f : Shape), (as.parts k)[i]? = some (h, hd, f) → f.Inside succ (h + hd.toNat)
  | .nil, _, _, _, _, _, _, _, he => by simp [Limbs.parts] at he
  | .cons hd' f' rest, k, j, hf, 0, h, hd, f, he => by
    rw [Limbs.Fits] at hf
    have := Shape.inside hf.2.1
    simp only [Limbs.parts, List.getElem?_cons_zero, Option.some.injEq, Prod.mk.injEq] at he
    obtain ⟨rfl, rfl, rfl⟩ := he
    exact this
  | .cons hd' f' rest, k, j, hf, i + 1, h, hd, f, he => by
    rw [Limbs.Fits] at hf
    exact Limbs.insides hf.2.2 i h hd f (by simpa [Limbs.parts] using he)
end

end Verif.Walk
