import Verif.Walk.Shape
/-!
# The parts of structured code are regions

A place is structured code at a known position of the control flow graph.  Its parts are places again, and its switches
are branching constructs.
-/
namespace Verif.Walk

open Verif.Cfg Verif.Segments Verif.Graph

variable {succ : Nat → List Nat}

/-- Structured code that occupies a region. -/
structure Place (succ : Nat → List Nat) (s : Shape) (k : Nat) (xs : List Nat) : Prop where
  region : Region succ k (k + s.size)
  fits : s.Fits succ k xs
  outside : ∀ x ∈ xs, ¬ In k (k + s.size) x

/-! ## One block after the other -/

theorem Place.line {r : Shape} {k : Nat} {xs : List Nat} (h : Place succ (.line r) k xs) :
    Place succ r (k + 1) xs := by
  have hf := h.fits
  rw [Shape.Fits] at hf
  have hi := Shape.inside hf.2
  have hp := r.pos
  have he : k + (Shape.line r).size = k + 1 + r.size := by simp only [Shape.size]; omega
  have hR := h.region
  rw [he] at hR
  refine ⟨hR.sub (Nat.lt_succ_self _) (Nat.le_refl _) (by omega) ?_ (fun u v hv => Shape.out hf.2 hv)
    (fun y hy => (hi y hy).1) (fun y hy => (hi y hy).2) ?_ ?_, hf.2, ?_⟩
  · intro u v hv h1 h2 _
    have : u = k := by unfold In at *; omega
    subst this
    rw [hf.1] at hv
    exact List.mem_singleton.1 hv
  · intro y h1 h2
    have : y = k := by unfold In at *; omega
    subst this
    exact .refl ⟨h1, h2⟩
  · refine ⟨k, ⟨Nat.le_refl _, by omega⟩, by unfold In; omega, ?_⟩
    rw [hf.1]
    exact List.mem_cons_self
  · intro x hx h'
    refine h.outside x hx ?_
    unfold In at *
    omega

/-! ## The arms of a switch -/

/-- Ways within an arm. -/
theorem Limbs.ways {as : Limbs} {k j : Nat} (hf : as.Fits succ k j) {i h : Nat} {hd : Bool} {f : Shape}
    (hp : (as.parts k)[i]? = some (h, hd, f)) {y : Nat} (hy : In h (h + hd.toNat + f.size) y) :
    Via succ (In h (h + hd.toNat + f.size)) h y ∧
    Via succ (In h (h + hd.toNat + f.size)) y (h + hd.toNat + f.size - 1) := by
  have hpf := f.pos
  obtain ⟨g1, g2⟩ := Limbs.fits hf hp
  have hin := Limbs.insides hf i h hd f hp
  have hsub : ∀ z, In (h + hd.toNat) (h + hd.toNat + f.size) z → In h (h + hd.toNat + f.size) z :=
    fun z hz => ⟨by have := hz.1; omega, hz.2⟩
  have hh : In h (h + hd.toNat + f.size) h := ⟨Nat.le_refl _, by omega⟩
  by_cases hyh : h + hd.toNat ≤ y
  · obtain ⟨b1, b2⟩ := hin y ⟨hyh, hy.2⟩
    refine ⟨?_, b2.mono hsub⟩
    cases hd with
    | false => exact b1.mono hsub
    | true => exact .step hh (g2 rfl).1 (b1.mono hsub)
  · cases hd with
    | false => exact absurd hy.1 (by simpa using hyh)
    | true =>
      have : y = h := by have := hy.1; simp only [Bool.toNat_true] at hyh; omega
      subst this
      exact ⟨.refl hh, .step hh (g2 rfl).1 ((hin (y + 1) ⟨Nat.le_refl _, by omega⟩).2.mono hsub)⟩

/-- What a switch and its arms look like. -/
structure Forked (succ : Nat → List Nat) (as : Limbs) (k : Nat) : Prop where
  entries : succ k = (as.parts (k + 1)).map (·.1)
  many : 2 ≤ (as.parts (k + 1)).length
  limbs : as.Fits succ (k + 1) (k + 1 + as.size)

section
variable {as : Limbs} {k : Nat}

theorem Forked.enter (F : Forked succ as k) {i h : Nat} {hd : Bool} {f : Shape}
    (hp : (as.parts (k + 1))[i]? = some (h, hd, f)) : h ∈ succ k := by
  rw [F.entries]
  exact List.mem_map.2 ⟨_, List.mem_of_getElem? hp, rfl⟩

theorem Forked.target (F : Forked succ as k) {v : Nat} (hv : v ∈ succ k) :
    ∃ (i : Nat) (hd : Bool) (f : Shape), (as.parts (k + 1))[i]? = some (v, hd, f) := by
  rw [F.entries] at hv
  obtain ⟨⟨h, hd, f⟩, hm, rfl⟩ := List.mem_map.1 hv
  obtain ⟨i, hi⟩ := List.mem_iff_getElem?.1 hm
  exact ⟨i, hd, f, hi⟩

/-- To an arm and along it. -/
theorem Forked.along (F : Forked succ as k) {i h : Nat} {hd : Bool} {f : Shape}
    (hp : (as.parts (k + 1))[i]? = some (h, hd, f)) {y : Nat} (hy : In h (h + hd.toNat + f.size) y) :
    Via succ (fun z => z = k ∨ In h (h + hd.toNat + f.size) z) k y :=
  .step (.inl rfl) (F.enter hp) ((Limbs.ways F.limbs hp hy).1.mono fun _ hz => .inr hz)

/-- Through an arm to the join. -/
theorem Forked.through (F : Forked succ as k) {i h : Nat} {hd : Bool} {f : Shape}
    (hp : (as.parts (k + 1))[i]? = some (h, hd, f)) :
    Via succ (fun z => z = k ∨ In h (h + hd.toNat + f.size) z ∨ z = k + 1 + as.size) k (k + 1 + as.size) := by
  have hpf := f.pos
  obtain ⟨g1, _⟩ := Limbs.fits F.limbs hp
  refine ((F.along hp (y := h + hd.toNat + f.size - 1) ⟨by omega, by omega⟩).mono fun z hz => ?_).snoc
    (c := k + 1 + as.size) ?_ (.inr (.inr rfl))
  · rcases hz with hz | hz
    · exact .inl hz
    · exact .inr (.inl hz)
  · rw [Shape.last g1]
    exact List.mem_cons_self

/-- There is another arm. -/
theorem Forked.other (F : Forked succ as k) (i : Nat) :
    ∃ (i' h : Nat) (hd : Bool) (f : Shape), i' ≠ i ∧ (as.parts (k + 1))[i']? = some (h, hd, f) := by
  have hm := F.many
  have : ∃ i', i' ≠ i ∧ i' < (as.parts (k + 1)).length := by
    by_cases h : i = 0
    · exact ⟨1, by omega, by omega⟩
    · exact ⟨0, by omega, by omega⟩
  obtain ⟨i', h1, h2⟩ := this
  exact ⟨i', _, _, _, h1, List.getElem?_eq_getElem h2⟩

/-- Different arms share no block. -/
theorem Forked.disjoint {i i' h h' : Nat} {hd hd' : Bool} {f f' : Shape} (hp : (as.parts (k + 1))[i]? = some (h, hd, f))
    (hp' : (as.parts (k + 1))[i']? = some (h', hd', f')) (hne : i' ≠ i) {z : Nat} (hz : In h (h + hd.toNat + f.size) z) :
    ¬ In h' (h' + hd'.toNat + f'.size) z := by
  rcases Nat.lt_or_gt_of_ne hne with hlt | hlt
  · have := Limbs.ordered hp' hp hlt
    unfold In at *
    omega
  · have := Limbs.ordered hp hp' hlt
    unfold In at *
    omega

end

theorem Place.forked {as : Limbs} {r : Shape} {k : Nat} {xs : List Nat} (h : Place succ (.fork as r) k xs) :
    Forked succ as k := by
  have hf := h.fits
  rw [Shape.Fits] at hf
  exact ⟨hf.1, hf.2.1, hf.2.2.1⟩

theorem Place.join {as : Limbs} {r : Shape} {k : Nat} {xs : List Nat} (h : Place succ (.fork as r) k xs) :
    Place succ r (k + 1 + as.size) xs := by
  have F := h.forked
  have hf := h.fits
  rw [Shape.Fits] at hf
  obtain ⟨_, _, _, f3⟩ := hf
  have hi := Shape.inside f3
  have hp := r.pos
  have he : k + (Shape.fork as r).size = k + 1 + as.size + r.size := by simp only [Shape.size]; omega
  have hR := h.region
  rw [he] at hR
  have hm := F.many
  obtain ⟨_, h0, hd0, f0, _, hp0⟩ := F.other 0
  have hb0 := Limbs.bounds hp0
  have hpf0 := f0.pos
  refine ⟨hR.sub (by omega) (Nat.le_refl _) (by omega) ?_ (fun u v hv => Shape.out f3 hv)
    (fun y hy => (hi y hy).1) (fun y hy => (hi y hy).2) ?_ ?_, f3, ?_⟩
  · intro u v hv h1 h2 h3
    by_cases hu : u = k
    · subst hu
      obtain ⟨i, hd, f, hi⟩ := F.target hv
      have := Limbs.bounds hi
      have := f.pos
      unfold In at *
      omega
    · have := Limbs.edges F.limbs (u := u) (v := v) (by unfold In at *; omega) hv
      unfold In at *
      omega
  · intro y h1 h2
    by_cases hy : y = k
    · subst hy
      exact .refl ⟨h1, h2⟩
    · obtain ⟨i, h', hd, f, hpt, e1, e2⟩ := Limbs.cover (as := as) (k := k + 1) (y := y)
        (by have := h1.1; omega) (by unfold In at *; omega)
      have := Limbs.bounds hpt
      refine (F.along hpt ⟨e1, e2⟩).mono fun z hz => ?_
      unfold In at *
      omega
  · refine ⟨h0 + hd0.toNat + f0.size - 1, ⟨by omega, by omega⟩, by unfold In; omega, ?_⟩
    rw [Shape.last (Limbs.fits F.limbs hp0).1]
    exact List.mem_cons_self
  · intro x hx h'
    refine h.outside x hx ?_
    unfold In at *
    omega

theorem Place.limb {as : Limbs} {r : Shape} {k : Nat} {xs : List Nat} (h : Place succ (.fork as r) k xs)
    {i h' : Nat} {hd : Bool} {f : Shape} (hpt : (as.parts (k + 1))[i]? = some (h', hd, f)) :
    Place succ f (h' + hd.toNat) [k + 1 + as.size] := by
  have F := h.forked
  have hf := h.fits
  rw [Shape.Fits] at hf
  obtain ⟨_, _, _, f3⟩ := hf
  have hir := Shape.inside f3
  have hp := r.pos
  have hpf := f.pos
  have hb := Limbs.bounds hpt
  obtain ⟨g1, g2⟩ := Limbs.fits F.limbs hpt
  have hi := Limbs.insides F.limbs _ _ _ _ hpt
  have he : k + (Shape.fork as r).size = k + 1 + as.size + r.size := by simp only [Shape.size]; omega
  have hR := h.region
  have hout := h.outside
  rw [he] at hR hout
  have hsub : ∀ z, In (h' + hd.toNat) (h' + hd.toNat + f.size) z → In h' (h' + hd.toNat + f.size) z :=
    fun z hz => ⟨by have := hz.1; omega, hz.2⟩
  refine ⟨hR.sub (by omega) (by omega) (by omega) ?_ (fun u v hv => Shape.out g1 hv)
    (fun y hy => (hi y hy).1) (fun y hy => (hi y hy).2) ?_ ?_, g1, ?_⟩
  · intro u v hv h1 h2 h3
    have same : ∀ {i2 : Nat} {hd2 : Bool} {f2 : Shape}, (as.parts (k + 1))[i2]? = some (v, hd2, f2) →
        v = h' + hd.toNat := by
      intro i2 hd2 f2 hp2
      have hpf2 := f2.pos
      by_cases hne : i2 = i
      · subst hne
        rw [hpt] at hp2
        simp only [Option.some.injEq, Prod.mk.injEq] at hp2
        have := hp2.1
        have := h3.1
        omega
      · exact absurd ⟨Nat.le_refl _, by omega⟩ (Forked.disjoint hpt hp2 hne (hsub v h3))
    by_cases hu : u = k
    · subst hu
      obtain ⟨i2, hd2, f2, hi2⟩ := F.target hv
      exact same hi2
    · by_cases hu2 : u < k + 1 + as.size
      · obtain ⟨i2, h2', hd2, f2, hp2, e1, e2⟩ := Limbs.cover (as := as) (k := k + 1) (y := u)
          (by have := h1.1; omega) hu2
        obtain ⟨q1, q2⟩ := Limbs.fits F.limbs hp2
        by_cases hin : h2' + hd2.toNat ≤ u
        · have hne : i2 ≠ i := by
            rintro rfl
            rw [hpt] at hp2
            simp only [Option.some.injEq, Prod.mk.injEq] at hp2
            obtain ⟨rfl, rfl, rfl⟩ := hp2
            exact h2 ⟨hin, e2⟩
          rcases Shape.edges q1 ⟨hin, e2⟩ hv with hv' | ⟨_, hv'⟩
          · exact absurd ⟨by have := hv'.1; omega, hv'.2⟩ (Forked.disjoint hpt hp2 hne (hsub v h3))
          · rw [List.mem_singleton] at hv'
            have := h3.2
            omega
        · cases hd2 with
          | false => exact absurd e1 (by simpa using hin)
          | true =>
            have hu' : u = h2' := by simp only [Bool.toNat_true] at hin; omega
            subst hu'
            rcases (q2 rfl).2 v hv with hv' | ⟨_, hd3, f3, hv'⟩
            · by_cases hne : i2 = i
              · subst hne
                rw [hpt] at hp2
                simp only [Option.some.injEq, Prod.mk.injEq] at hp2
                obtain ⟨rfl, rfl, rfl⟩ := hp2
                exact hv'
              · have hpf2 := f2.pos
                exact absurd (by rw [hv']; exact ⟨by omega, by simp only [Bool.toNat_true]; omega⟩)
                  (Forked.disjoint hpt hp2 hne (hsub v h3))
            · exact same hv'
      · rcases Shape.edges f3 (u := u) (v := v) (by unfold In at *; omega) hv with hv' | ⟨_, hv'⟩
        · unfold In at *
          omega
        · refine absurd ?_ (hout v hv')
          unfold In at *
          omega
  · intro y h1 h2
    by_cases hy : y = k
    · subst hy
      exact .refl ⟨h1, h2⟩
    · by_cases hy2 : y < k + 1 + as.size
      · obtain ⟨i2, h2', hd2, f2, hp2, e1, e2⟩ := Limbs.cover (as := as) (k := k + 1) (y := y)
          (by have := h1.1; omega) hy2
        have hb2 := Limbs.bounds hp2
        by_cases hne : i2 = i
        · subst hne
          rw [hpt] at hp2
          simp only [Option.some.injEq, Prod.mk.injEq] at hp2
          obtain ⟨rfl, rfl, rfl⟩ := hp2
          have : y = h' := by
            have hB : hd.toNat = 0 ∨ hd.toNat = 1 := by cases hd <;> simp
            unfold In at *
            omega
          subst this
          refine .step ⟨⟨Nat.le_refl _, by omega⟩, by unfold In; omega⟩ (F.enter hpt) (.refl ⟨h1, h2⟩)
        · refine (F.along hp2 ⟨e1, e2⟩).mono fun z hz => ?_
          rcases hz with rfl | hz
          · exact ⟨⟨Nat.le_refl _, by omega⟩, by unfold In; omega⟩
          · refine ⟨by unfold In at *; omega, fun hz' => Forked.disjoint hpt hp2 hne (hsub z hz') hz⟩
      · obtain ⟨i2, h2', hd2, f2, hne, hp2⟩ := F.other i
        have hb2 := Limbs.bounds hp2
        refine Via.trans (x := k + 1 + as.size) ((F.through hp2).mono fun z hz => ?_)
          ((hir y (by unfold In at *; omega)).1.mono fun z hz => ?_)
        · rcases hz with rfl | hz | rfl
          · exact ⟨⟨Nat.le_refl _, by omega⟩, by unfold In; omega⟩
          · refine ⟨by unfold In at *; omega, fun hz' => Forked.disjoint hpt hp2 hne (hsub z hz') hz⟩
          · exact ⟨⟨by omega, by omega⟩, by unfold In; omega⟩
        · unfold In at *
          omega
  · cases hd with
    | false => exact ⟨k, ⟨Nat.le_refl _, by omega⟩, by unfold In; omega, F.enter hpt⟩
    | true =>
      refine ⟨h', ⟨by omega, by omega⟩, by unfold In; simp only [Bool.toNat_true]; omega, (g2 rfl).1⟩
  · intro x hx
    rw [List.mem_singleton] at hx
    unfold In
    omega

/-- A switch is a branching construct. -/
theorem Place.fork {b : Body} {ret : Nat} (W : Whole b ret) {as : Limbs} {r : Shape} {k : Nat} {xs : List Nat}
    (h : Place b.succ (.fork as r) k xs) (hreal : ¬ EndsInFalseEdge b (k + 1 + as.size)) :
    Branching b ret k k (k + 1 + as.size) (k + (Shape.fork as r).size) := by
  have F := h.forked
  have he : k + (Shape.fork as r).size = k + 1 + as.size + r.size := by simp only [Shape.size]; omega
  have hp := r.pos
  refine ⟨W, h.region, by rw [he]; exact h.join.region, Nat.le_refl _, by omega, ?_, ?_, ?_, ?_, hreal⟩
  · intro u v hv h1 h2
    apply Classical.byContradiction
    intro hu
    have := h.region.inn u v hv ⟨by have := h1.1; omega, h1.2⟩ (by unfold In at *; omega)
    have := h1.1
    omega
  · intro u v hv hu
    by_cases hk : u = k
    · subst hk
      obtain ⟨i, hd, f, hi⟩ := F.target hv
      have := Limbs.bounds hi
      have := f.pos
      unfold In
      omega
    · have := Limbs.edges F.limbs (u := u) (v := v) (by unfold In at *; omega) hv
      unfold In at *
      omega
  · intro y hy
    have : y = k := by unfold In at hy; omega
    subst this
    exact .refl ⟨Nat.le_refl _, Nat.lt_succ_self _⟩
  · intro c hc _
    obtain ⟨i, h', hd, f, hpt, e1, e2⟩ := Limbs.cover (as := as) (k := k + 1) (y := c) hc.1 hc.2
    obtain ⟨i2, h2', hd2, f2, hne, hp2⟩ := F.other i
    have := Limbs.bounds hpt
    refine (F.through hp2).mono fun z hz => ?_
    rintro rfl
    rcases hz with rfl | hz | rfl
    · unfold In at *; omega
    · exact Forked.disjoint hpt hp2 hne ⟨e1, e2⟩ hz
    · unfold In at *; omega

/-- No block of an arm dominates one of another arm. -/
theorem Place.separate {b : Body} {ret : Nat} (W : Whole b ret) {as : Limbs} {r : Shape} {k : Nat} {xs : List Nat}
    (h : Place b.succ (.fork as r) k xs) (hreal : ¬ EndsInFalseEdge b (k + 1 + as.size)) {i i' h1 h2 : Nat}
    {hd hd' : Bool} {f f' : Shape} (hp : (as.parts (k + 1))[i]? = some (h1, hd, f))
    (hp' : (as.parts (k + 1))[i']? = some (h2, hd', f')) (hne : i ≠ i') {x y : Nat}
    (hx : In h1 (h1 + hd.toNat + f.size) x) (hy : In h2 (h2 + hd'.toNat + f'.size) y) :
    x ≠ y ∧ ¬ Dominates b.succ x y := by
  have F := h.forked
  have hd1 := Forked.disjoint hp hp' (Ne.symm hne) hx
  have hb := Limbs.bounds hp
  have he : k + (Shape.fork as r).size = k + 1 + as.size + r.size := by simp only [Shape.size]; omega
  have hpr := r.pos
  refine ⟨by rintro rfl; exact hd1 hy, (h.fork W hreal).not_dom (x := x) (y := y) (by unfold In at *; omega) ?_⟩
  refine (F.along hp' hy).mono fun z hz => ?_
  rintro rfl
  rcases hz with rfl | hz
  · unfold In at *; omega
  · exact hd1 hz

/-! ## Loops -/

/-- What a loop looks like: the switch is `a`, the body begins at `s`, and `x` comes after it. -/
structure Looped (succ : Nat → List Nat) (c : Nat) (hd : Bool) (t : Shape) (k s x : Nat) : Prop where
  start : s = k + 3 + c + hd.toNat
  ends : x = s + t.size
  line : ∀ i ≤ c + 1, succ (k + i) = [k + i + 1]
  switch : succ (k + 2 + c) = if hd then [k + 3 + c, s] else [x, s]
  head : hd = true → succ (k + 3 + c) = [x, s]
  body : t.Fits succ s [k + 1]

theorem Place.looped {c : Nat} {hd : Bool} {t r : Shape} {k : Nat} {xs : List Nat} (h : Place succ (.loop c hd t r) k xs) :
    Looped succ c hd t k (k + 3 + c + hd.toNat) (k + 3 + c + hd.toNat + t.size) := by
  have hf := h.fits
  rw [Shape.Fits] at hf
  obtain ⟨f1, f2, f3, f4, _⟩ := hf
  refine ⟨rfl, rfl, f1, ?_, ?_, f4⟩
  · rw [f2]
    cases hd <;> rfl
  · intro hh
    rw [f3 hh, hh]
    rfl

section
variable {c : Nat} {hd : Bool} {t : Shape} {k s x : Nat}

theorem Looped.lt (L : Looped succ c hd t k s x) : k + 2 + c < s ∧ s < x := by
  have := L.start
  have := L.ends
  have := t.pos
  omega

theorem Looped.before (L : Looped succ c hd t k s x) {y : Nat} (hy : In k (k + 2 + c + 1) y) :
    Via succ (In k (y + 1)) k y := by
  have := straight (k := k) (n := c + 2) (fun i hi => L.line i (by omega)) (y - k) 0 (by unfold In at hy; omega)
  rw [show k + 0 + (y - k) = y by have := hy.1; omega] at this
  exact this

theorem Looped.into (L : Looped succ c hd t k s x) : s ∈ succ (k + 2 + c) := by
  rw [L.switch]
  cases hd <;> simp

/-- The way out. -/
theorem Looped.out (L : Looped succ c hd t k s x) :
    Via succ (fun z => z = k + 2 + c ∨ (hd = true ∧ z = k + 3 + c) ∨ z = x) (k + 2 + c) x := by
  cases hh : hd with
  | false =>
    refine .step (.inl rfl) (x := x) ?_ (.refl (.inr (.inr rfl)))
    rw [L.switch, hh]
    simp
  | true =>
    refine .step (.inl rfl) (x := k + 3 + c) ?_ (.step (.inr (.inl ⟨rfl, rfl⟩)) (x := x) ?_ (.refl (.inr (.inr rfl))))
    · rw [L.switch, hh]
      simp
    · rw [L.head hh]
      simp

/-- Where the blocks of a loop lead. -/
theorem Looped.edges (L : Looped succ c hd t k s x) {u v : Nat} (hu : In k x u) (hv : v ∈ succ u) :
    (u < k + 2 + c ∧ v = u + 1) ∨ (k + 2 + c ≤ u ∧ u < s ∧ (v = x ∨ v = s ∨ (u = k + 2 + c ∧ v = k + 3 + c ∧ hd = true))) ∨
      (s ≤ u ∧ (In (s + 1) x v ∨ v = k + 1)) := by
  have hs := L.start
  have hx := L.ends
  by_cases h1 : u < k + 2 + c
  · left
    have := L.line (u - k) (by omega)
    rw [show k + (u - k) = u by have := hu.1; omega] at this
    rw [this, List.mem_singleton] at hv
    exact ⟨h1, hv⟩
  · right
    by_cases h2 : s ≤ u
    · right
      refine ⟨h2, ?_⟩
      rcases Shape.edges L.body (u := u) (v := v) ⟨h2, by have := hu.2; omega⟩ hv with h | ⟨_, h⟩
      · left
        rw [hx]
        exact h
      · right
        exact List.mem_singleton.1 h
    · left
      refine ⟨by omega, by omega, ?_⟩
      by_cases h3 : u = k + 2 + c
      · rw [h3, L.switch] at hv
        cases hh : hd with
        | false =>
          rw [hh] at hv
          simp only [Bool.false_eq_true, if_false, List.mem_cons, List.not_mem_nil, or_false] at hv
          rcases hv with hv | hv
          · exact .inl hv
          · exact .inr (.inl hv)
        | true =>
          rw [hh] at hv
          simp only [if_true, List.mem_cons, List.not_mem_nil, or_false] at hv
          rcases hv with hv | hv
          · exact .inr (.inr ⟨h3, hv, rfl⟩)
          · exact .inr (.inl hv)
      · have hh : hd = true := by
          cases hd with
          | true => rfl
          | false => simp only [Bool.toNat_false] at hs; omega
        have h4 : u = k + 3 + c := by rw [hh] at hs; simp only [Bool.toNat_true] at hs; omega
        rw [h4, L.head hh] at hv
        simp only [List.mem_cons, List.not_mem_nil, or_false] at hv
        rcases hv with hv | hv
        · exact .inl hv
        · exact .inr (.inl hv)

/-- Ways to the blocks of a loop. -/
theorem Looped.body_way (L : Looped succ c hd t k s x) {y : Nat} (hy : In s x y) :
    Via succ (fun z => z = k + 2 + c ∨ In s x z) (k + 2 + c) y := by
  refine .step (.inl rfl) L.into ((Shape.inside L.body y ?_).1.mono fun z hz => ?_)
  · rw [← L.ends]
    exact hy
  · rw [← L.ends] at hz
    exact .inr hz

/-- To the head of the arm that leaves the loop. -/
theorem Looped.head_way (L : Looped succ c hd t k s x) {y : Nat} (h1 : k + 2 + c ≤ y) (h2 : y < s) :
    Via succ (fun z => k + 2 + c ≤ z ∧ z ≤ y) (k + 2 + c) y := by
  have hs := L.start
  by_cases h3 : y = k + 2 + c
  · subst h3
    exact .refl ⟨Nat.le_refl _, Nat.le_refl _⟩
  · have hh : hd = true := by
      cases hd with
      | true => rfl
      | false => simp only [Bool.toNat_false] at hs; omega
    have h4 : y = k + 3 + c := by rw [hh] at hs; simp only [Bool.toNat_true] at hs; omega
    refine .step ⟨Nat.le_refl _, h1⟩ (x := y) ?_ (.refl ⟨h1, Nat.le_refl _⟩)
    rw [L.switch, hh, h4]
    simp

end

theorem Place.after {c : Nat} {hd : Bool} {t r : Shape} {k : Nat} {xs : List Nat} (h : Place succ (.loop c hd t r) k xs) :
    Place succ r (k + 3 + c + hd.toNat + t.size) xs := by
  have L := h.looped
  have hf := h.fits
  rw [Shape.Fits] at hf
  obtain ⟨_, _, _, _, f5⟩ := hf
  have hi := Shape.inside f5
  have hp := r.pos
  have hlt := L.lt
  have he : k + (Shape.loop c hd t r).size = k + 3 + c + hd.toNat + t.size + r.size := by simp only [Shape.size]; omega
  have hR := h.region
  rw [he] at hR
  refine ⟨hR.sub (by omega) (Nat.le_refl _) (by omega) ?_ (fun u v hv => Shape.out f5 hv)
    (fun y hy => (hi y hy).1) (fun y hy => (hi y hy).2) ?_ ?_, f5, ?_⟩
  · intro u v hv h1 h2 h3
    have := L.edges (u := u) (v := v) (by unfold In at *; omega) hv
    unfold In at *
    omega
  · intro y h1 h2
    have hb : ∀ y, In k (k + 2 + c + 1) y → Via succ (fun z => In k (k + 3 + c + hd.toNat + t.size + r.size) z ∧
        ¬ In (k + 3 + c + hd.toNat + t.size) (k + 3 + c + hd.toNat + t.size + r.size) z) k y := by
      intro y hy
      refine (L.before hy).mono fun z hz => ?_
      unfold In at *
      omega
    by_cases hy : y ≤ k + 2 + c
    · exact hb y (by unfold In at *; omega)
    · by_cases hy2 : y < k + 3 + c + hd.toNat
      · refine (hb (k + 2 + c) (by unfold In; omega)).trans ((L.head_way (by omega) hy2).mono fun z hz => ?_)
        unfold In at *
        omega
      · refine (hb (k + 2 + c) (by unfold In; omega)).trans ((L.body_way (y := y) (by unfold In at *; omega)).mono fun z hz => ?_)
        unfold In at *
        omega
  · cases hh : hd with
    | false =>
      refine ⟨k + 2 + c, ⟨by omega, by omega⟩, by unfold In; omega, ?_⟩
      have := L.switch
      rw [hh] at this
      rw [this]
      simp
    | true =>
      refine ⟨k + 3 + c, ⟨by omega, by omega⟩, by unfold In; omega, ?_⟩
      have := L.head hh
      rw [hh] at this
      rw [this]
      simp
  · intro y hy h'
    refine h.outside y hy ?_
    unfold In at *
    omega

theorem Place.body {c : Nat} {hd : Bool} {t r : Shape} {k : Nat} {xs : List Nat} (h : Place succ (.loop c hd t r) k xs) :
    Place succ t (k + 3 + c + hd.toNat) [k + 1] := by
  have L := h.looped
  have hf := h.fits
  rw [Shape.Fits] at hf
  obtain ⟨_, _, _, f4, f5⟩ := hf
  have hi := Shape.inside f4
  have hir := Shape.inside f5
  have hp := r.pos
  have hpt := t.pos
  have hlt := L.lt
  have he : k + (Shape.loop c hd t r).size = k + 3 + c + hd.toNat + t.size + r.size := by simp only [Shape.size]; omega
  have hR := h.region
  have hout := h.outside
  rw [he] at hR hout
  refine ⟨hR.sub (by omega) (by omega) (by omega) ?_ (fun u v hv => Shape.out f4 hv)
    (fun y hy => (hi y hy).1) (fun y hy => (hi y hy).2) ?_ ?_, f4, ?_⟩
  · intro u v hv h1 h2 h3
    by_cases hu : u < k + 3 + c + hd.toNat + t.size
    · have := L.edges (u := u) (v := v) (by unfold In at *; omega) hv
      unfold In at *
      omega
    · rcases Shape.edges f5 (u := u) (v := v) (by unfold In at *; omega) hv with hv' | ⟨_, hv'⟩
      · unfold In at *
        omega
      · refine absurd ?_ (hout v hv')
        unfold In at *
        omega
  · intro y h1 h2
    have hb : ∀ y, In k (k + 2 + c + 1) y → Via succ (fun z => In k (k + 3 + c + hd.toNat + t.size + r.size) z ∧
        ¬ In (k + 3 + c + hd.toNat) (k + 3 + c + hd.toNat + t.size) z) k y := by
      intro y hy
      refine (L.before hy).mono fun z hz => ?_
      unfold In at *
      omega
    by_cases hy : y ≤ k + 2 + c
    · exact hb y (by unfold In at *; omega)
    · by_cases hy2 : y < k + 3 + c + hd.toNat
      · refine (hb (k + 2 + c) (by unfold In; omega)).trans ((L.head_way (by omega) hy2).mono fun z hz => ?_)
        unfold In at *
        omega
      · refine ((hb (k + 2 + c) (by unfold In; omega)).trans (L.out.mono fun z hz => ?_)).trans
          ((hir y (by unfold In at *; omega)).1.mono fun z hz => ?_)
        · rcases hz with hz | ⟨hh, hz⟩ | hz
          · unfold In; omega
          · rw [hh]; simp only [In, Bool.toNat_true]; omega
          · unfold In; omega
        · unfold In at *
          omega
  · exact ⟨k + 2 + c, ⟨by omega, by omega⟩, by unfold In; omega, L.into⟩
  · intro x hx
    rw [List.mem_singleton] at hx
    unfold In
    omega

/-- A loop is a branching construct. -/
theorem Place.loop {b : Body} {ret : Nat} (W : Whole b ret) {c : Nat} {hd : Bool} {t r : Shape} {k : Nat} {xs : List Nat}
    (h : Place b.succ (.loop c hd t r) k xs) (hreal : ¬ EndsInFalseEdge b (k + 3 + c + hd.toNat + t.size))
    (hhead : hd = true → EndsInFalseEdge b (k + 3 + c)) :
    Branching b ret k (k + 2 + c) (k + 3 + c + hd.toNat + t.size) (k + (Shape.loop c hd t r).size) := by
  have L := h.looped
  have he : k + (Shape.loop c hd t r).size = k + 3 + c + hd.toNat + t.size + r.size := by simp only [Shape.size]; omega
  have hp := r.pos
  have hlt := L.lt
  have hout := h.outside
  have hR := h.region
  rw [he] at hR hout
  refine ⟨W, h.region, by rw [he]; exact h.after.region, by omega, by omega, ?_, ?_, fun y => L.before, ?_, hreal⟩
  · intro u v hv h1 h2
    rw [he] at h1 h2
    by_cases hin : In k (k + 3 + c + hd.toNat + t.size + r.size) u
    · have := L.edges (u := u) (v := v) (by unfold In at *; omega) hv
      unfold In at *
      omega
    · have := hR.inn u v hv (by unfold In at *; omega) hin
      unfold In at *
      omega
  · intro u v hv hu
    have := L.edges hu hv
    unfold In at *
    omega
  · intro y hy hne
    refine L.out.mono fun z hz => ?_
    rintro rfl
    rcases hz with rfl | ⟨hh, rfl⟩ | rfl
    · unfold In at *; omega
    · exact hne (hhead hh)
    · unfold In at *; omega

/-- What comes after the loop and its body do not dominate each other. -/
theorem Place.apart {b : Body} {ret : Nat} (W : Whole b ret) {c : Nat} {hd : Bool} {t r : Shape} {k : Nat} {xs : List Nat}
    (h : Place b.succ (.loop c hd t r) k xs) (hreal : ¬ EndsInFalseEdge b (k + 3 + c + hd.toNat + t.size))
    (hhead : hd = true → EndsInFalseEdge b (k + 3 + c)) {y : Nat}
    (hy : In (k + 3 + c + hd.toNat) (k + 3 + c + hd.toNat + t.size) y) :
    (¬ Dominates b.succ (k + 3 + c + hd.toNat + t.size) y) ∧ ¬ Dominates b.succ y (k + 3 + c + hd.toNat + t.size) := by
  have L := h.looped
  have B := h.loop W hreal hhead
  have he : k + (Shape.loop c hd t r).size = k + 3 + c + hd.toNat + t.size + r.size := by simp only [Shape.size]; omega
  rw [he] at B
  have hp := r.pos
  have hlt := L.lt
  refine ⟨B.not_dom (by unfold In; omega) ((L.body_way hy).mono fun z hz => ?_),
    B.not_dom (by unfold In at *; omega) (L.out.mono fun z hz => ?_)⟩
  · unfold In at *
    omega
  · rintro rfl
    rcases hz with rfl | ⟨hh, hz⟩ | rfl
    · unfold In at *; omega
    · rw [hh] at hy
      simp only [In, Bool.toNat_true] at hy
      omega
    · unfold In at *; omega

/-- All of a function. -/
theorem Place.whole {s : Shape} (hf : s.Fits succ 0 []) (hout : ∀ u, s.size ≤ u → succ u = []) :
    Place succ s 0 [] := by
  have hi := Shape.inside hf
  have hp := s.pos
  have hreach : ∀ y, Reach succ 0 y → y < s.size := by
    intro y hy
    induction hy with
    | refl => exact hp
    | tail _ hv ih =>
      rcases Shape.edges hf (u := _) (v := _) ⟨Nat.zero_le _, by simpa using ih⟩ hv with h | ⟨_, h⟩
      · simpa using h.2
      · cases h
  refine ⟨⟨by omega, ?_, fun u v hv => Shape.out hf hv, fun y hy => (hi y hy).1, fun y hy => (hi y hy).2,
    .refl (.inl (Nat.le_refl _)), ?_⟩, hf, by simp⟩
  · intro u v hv h1 h2
    rw [hout u (by unfold In at h2; omega)] at hv
    cases hv
  · intro y hy hr
    exact absurd ⟨Nat.zero_le _, by simpa using hreach y hr⟩ hy

end Verif.Walk
