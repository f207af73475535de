import Verif.GpuKern.Lemmas

/-!
# The seven-point kernel: no race, no access out of bounds, no thread left at a barrier, and the result
-/

namespace SpatialOps
namespace GpuKern

section
variable {V : Type} [Add V] [Sub V] [Mul V] [Div V] [OfNat V 2]
variable {nx ny : Int} {N : Nat} {h2 : V} {f : Int → V}

/-- The accesses of a thread at a position. -/
theorem access_cases {t : Tid} {p : Pos} {a : Loc} {w : Bool} (h : (codeOf nx ny N h2 f t p).access = some (a, w)) :
    (w = false ∧ ∃ i, a = .glob 0 i) ∨
    (w = true ∧ a = .sh (idx 16 16 t.x t.y 0) ∧ ∃ k, p = .st k) ∨
    (w = false ∧ (∃ i, a = .sh i) ∧ ∃ k, phase N p = 2 * k + 1) ∨
    (w = true ∧ ∃ k : Nat, p = .b5 k ∧ a = .glob 1 (own nx ny t k)) := by
  cases p <;> simp only [codeOf, c0, c1, c2, c3, c4, c5, Code.access, Option.some.injEq, Prod.mk.injEq, reduceCtorEq] at h <;>
    obtain ⟨rfl, rfl⟩ := h
  · exact .inl ⟨rfl, _, rfl⟩
  · exact .inl ⟨rfl, _, rfl⟩
  · exact .inl ⟨rfl, _, rfl⟩
  · exact .inr (.inl ⟨rfl, rfl, _, rfl⟩)
  · exact .inl ⟨rfl, _, rfl⟩
  · exact .inr (.inr (.inl ⟨rfl, ⟨_, rfl⟩, _, rfl⟩))
  · exact .inr (.inr (.inl ⟨rfl, ⟨_, rfl⟩, _, rfl⟩))
  · exact .inr (.inr (.inl ⟨rfl, ⟨_, rfl⟩, _, rfl⟩))
  · exact .inr (.inr (.inl ⟨rfl, ⟨_, rfl⟩, _, rfl⟩))
  · exact .inr (.inr (.inr ⟨rfl, _, rfl, by rw [oidx_eq]⟩))

theorem Inv.no_race {L : Launch} (h16x : L.wx = 16) (h16y : L.wy = 16) {s : KState V} {pos : Tid → Pos} (I : Inv nx ny N h2 f L s pos) :
    ¬ s.Race L := by
  rintro ⟨t, t', a, w, w', hv, hv', hne, ha, ha', hw, hb⟩
  -- by symmetry `t` writes
  have main : ∀ t t' w', L.Valid t → L.Valid t' → t ≠ t' → (s.code t).access = some (a, true) → (s.code t').access = some (a, w') →
      ((∃ i, a = .sh i) → t.b1 = t'.b1 ∧ t.b2 = t'.b2) → False := by
    intro t t' w' hv hv' hne ha ha' hb
    rw [I.code t hv] at ha
    rw [I.code t' hv'] at ha'
    have hg := I.good t hv
    have hg' := I.good t' hv'
    rcases access_cases ha with ⟨h, -⟩ | ⟨-, e, k, hp⟩ | ⟨h, -⟩ | ⟨-, k, hp, e⟩
    · cases h
    · subst e
      have hbb := hb ⟨_, rfl⟩
      have hph := I.ph t t' hv hv' hbb.1 hbb.2
      rw [hp] at hph
      rcases access_cases ha' with ⟨-, i, d⟩ | ⟨-, d, m, hp'⟩ | ⟨-, -, m, d⟩ | ⟨-, m, hp', d⟩
      · cases d
      · injection d with d
        have q := sidx_inj (h16x ▸ hv.2.2.1) (h16y ▸ hv.2.2.2) (h16x ▸ hv'.2.2.1) (h16y ▸ hv'.2.2.2) d
        apply hne
        cases t; cases t'; simp_all
      · rw [d] at hph; simp only [phase] at hph; omega
      · cases d
    · cases h
    · subst e
      rcases access_cases ha' with ⟨-, i, d⟩ | ⟨-, d, -⟩ | ⟨-, ⟨i, d⟩, -⟩ | ⟨-, m, hp', d⟩
      · cases d
      · cases d
      · cases d
      · injection d with _ d
        rw [hp] at hg; rw [hp'] at hg'
        exact hne (own_inj hg.1 hg'.1 d).1
  rcases hw with rfl | rfl
  · exact main t t' w' hv hv' hne ha ha' hb
  · exact main t' t w hv' hv (Ne.symm hne) ha' ha fun h => ⟨(hb h).1.symm, (hb h).2.symm⟩

/-- The elements read before the loop exist. -/
def FirstReads (nx ny nz : Int) (L : Launch) : Prop :=
  ∀ t, L.Valid t → own nx ny t 0 < nx * ny * nz ∧ own nx ny t 1 < nx * ny * nz

theorem own_nonneg (hx : 0 ≤ nx) (hy : 0 ≤ ny) (t : Tid) {k : Int} (hk : 0 ≤ k) : 0 ≤ own nx ny t k := by
  unfold own idx innerX innerY
  have a : 0 ≤ ny * k := Int.mul_nonneg hy hk
  have b : 0 ≤ nx * (((t.b2 : Int) * 14 + 1 + t.y) + ny * k) := Int.mul_nonneg hx (by omega)
  omega

theorem Inv.has {L : Launch} {nz : Int} (h16x : L.wx = 16) (h16y : L.wy = 16) (hsz : ∀ a, L.size a = nx * ny * nz) (hsh : L.shSize = 256)
    (hx : 2 ≤ nx) (hy : 2 ≤ ny) (hN : N = (nz - 2).toNat)
    (hfirst : FirstReads nx ny nz L) {s : KState V} {pos : Tid → Pos} (I : Inv nx ny N h2 f L s pos) {t : Tid} (hv : L.Valid t) {a : Loc} {w : Bool}
    (h : (s.code t).access = some (a, w)) : L.Has a := by
  rw [I.code t hv] at h
  have hg := I.good t hv
  have hf := hfirst t hv
  have hx16 : t.x < 16 := h16x ▸ hv.2.2.1
  have hy16 : t.y < 16 := h16y ▸ hv.2.2.2
  have glob : ∀ b i, 0 ≤ i ∧ i < nx * ny * nz → L.Has (.glob b i) := fun b i h => by simp only [Launch.Has, hsz]; exact h
  have shb : ∀ i j : Int, 0 ≤ i → i < 16 → 0 ≤ j → j < 16 → L.Has (.sh (idx 16 16 i j 0)) := fun i j h1 h2 h3 h4 => by
    simp only [Launch.Has, hsh, idx]; omega
  cases hp : pos t <;> rw [hp] at h hg <;>
    simp only [codeOf, c0, c1, c2, c3, c4, c5, Code.access, Option.some.injEq, Prod.mk.injEq, reduceCtorEq] at h <;>
    obtain ⟨rfl, -⟩ := h <;> simp only [Good] at hg
  · exact glob _ _ ⟨own_nonneg (by omega) (by omega) t le_rfl, hf.1⟩
  · exact glob _ _ ⟨own_nonneg (by omega) (by omega) t (by omega), hf.2⟩
  · obtain ⟨⟨l1, l2⟩, hk⟩ := hg
    refine glob _ _ ?_
    have e : ∀ k : Int, idx nx ny (outerX t) (outerY t) k + t.x + nx * t.y = idx nx ny (outerX t + t.x) (outerY t + t.y) k := fun k => by
      unfold idx; ring
    rw [e]
    simp only [outerX, outerY, innerX, innerY] at *
    exact idx_bound (by omega) (by omega) (by omega) (by omega) (by omega) (by omega)
  · exact shb _ _ (by omega) (by omega) (by omega) (by omega)
  · obtain ⟨l, hk⟩ := hg
    simp only [Active, innerX, innerY] at l
    refine glob _ _ ?_
    unfold own; simp only [innerX, innerY]
    exact idx_bound (by omega) (by omega) (by omega) (by omega) (by omega) (by omega)
  · obtain ⟨l, hk⟩ := hg
    simp only [Active] at l
    exact shb _ _ (by omega) (by omega) (by omega) (by omega)
  · obtain ⟨l, hk⟩ := hg
    simp only [Active] at l
    exact shb _ _ (by omega) (by omega) (by omega) (by omega)
  · obtain ⟨l, hk⟩ := hg
    simp only [Active] at l
    exact shb _ _ (by omega) (by omega) (by omega) (by omega)
  · obtain ⟨l, hk⟩ := hg
    simp only [Active] at l
    exact shb _ _ (by omega) (by omega) (by omega) (by omega)
  · obtain ⟨l, hk⟩ := hg
    simp only [Active, innerX, innerY] at l
    refine glob _ _ ?_
    rw [oidx_eq]
    unfold own; simp only [innerX, innerY]
    exact idx_bound (by omega) (by omega) (by omega) (by omega) (by omega) (by omega)

omit [Add V] [Sub V] [Mul V] [Div V] [OfNat V 2] in
/-- A thread not at a barrier and not at its end accesses memory next. -/
theorem code_cases (c : Code V) : c = .halt ∨ (∃ d, c = .sync d) ∨ ∃ a w, c.access = some (a, w) := by
  cases c
  · exact .inl rfl
  · exact .inr (.inl ⟨_, rfl⟩)
  · exact .inr (.inr ⟨_, _, rfl⟩)
  · exact .inr (.inr ⟨_, _, rfl⟩)

omit [Add V] [Sub V] [Mul V] [Div V] [OfNat V 2] in
theorem access_steps {L : Launch} {s : KState V} {t : Tid} (hv : L.Valid t) {a : Loc} {w : Bool} (h : (s.code t).access = some (a, w))
    (hh : L.Has a) : ∃ s', KStep L s s' := by
  cases hc : s.code t with
  | halt => rw [hc] at h; cases h
  | sync d => rw [hc] at h; cases h
  | read b k => rw [hc] at h; injection h with h; injection h with h _; subst h; exact ⟨_, .read hv hc hh⟩
  | write b v d => rw [hc] at h; injection h with h; injection h with h _; subst h; exact ⟨_, .write hv hc hh⟩

theorem Inv.progress {L : Launch} {s : KState V} {pos : Tid → Pos} (I : Inv nx ny N h2 f L s pos)
    (has : ∀ t a w, L.Valid t → (s.code t).access = some (a, w) → L.Has a) : s.Done L ∨ ∃ s', KStep L s s' := by
  by_cases hd : s.Done L
  · exact .inl hd
  right
  simp only [KState.Done, not_forall] at hd
  obtain ⟨t, hv, ht⟩ := hd
  by_cases hex : ∃ t, L.Valid t ∧ ∃ a w, (s.code t).access = some (a, w)
  · obtain ⟨t, hv, a, w, h⟩ := hex
    exact access_steps hv h (has t a w hv h)
  · refine ⟨_, KStep.barrier t.b1 t.b2 hv.1 hv.2.1 fun t' hv' e1 e2 => ?_⟩
    have cls : ∀ u, L.Valid u → s.code u = .halt ∨ ∃ d, s.code u = .sync d := fun u hu => by
      rcases code_cases (s.code u) with h | h | h
      · exact .inl h
      · exact .inr h
      · exact absurd ⟨u, hu, h⟩ hex
    rcases cls t' hv' with h | h
    · exfalso
      rcases cls t hv with h' | ⟨d, h'⟩
      · exact ht h'
      · have hph := I.ph t t' hv hv' e1.symm e2.symm
        have hg := I.good t hv
        rw [I.code t hv] at h'
        rw [I.code t' hv'] at h
        have hdone : pos t' = .done := by
          revert h
          cases pos t' <;> simp [codeOf, c0, c1, c2, c3, c4, c5]
        rw [hdone] at hph
        rcases atSync h' with ⟨k, e, -⟩ | ⟨k, e, -⟩ <;> rw [e] at hph hg <;> simp only [phase, Good] at hph hg <;> omega
    · exact h

theorem Inv.done {L : Launch} {s : KState V} {pos : Tid → Pos} (I : Inv nx ny N h2 f L s pos) (hd : s.Done L) {t : Tid} (hv : L.Valid t) :
    pos t = .done := by
  have h := hd t hv
  rw [I.code t hv] at h
  revert h
  cases pos t <;> simp [codeOf, c0, c1, c2, c3, c4, c5]

/-- The start. -/
theorem inv_launch {L : Launch} {nz : Int} {dx dy dz : V} (sh : Nat → Nat → Int → V) :
    Inv nx ny (nz - 2).toNat (dx * dx) f L (launch L (opt2 nx ny nz dx dy dz) (fun _ => f) sh) fun _ => .i0 where
  code t hv := by simp only [launch, if_pos hv]; rfl
  good _ _ := trivial
  ph _ _ _ _ _ _ := rfl
  inp := rfl
  shm t _ _ k hk := by simp [loaded] at hk
  out t _ _ k hk hk2 := by simp only [written] at hk2; omega
  rest i _ := rfl

end
end GpuKern
end SpatialOps
