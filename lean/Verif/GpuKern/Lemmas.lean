import Verif.GpuKern.Spec
import Mathlib.Algebra.Order.BigOperators.Group.Finset
import Mathlib.Data.Finset.Prod
import Mathlib.Tactic.Ring
import Mathlib.Tactic.Linarith

/-!
# Lemmas about the seven-point kernel: where each thread stands, and the invariant of all interleavings
-/

namespace SpatialOps
namespace GpuKern

/-! ### Indices -/

theorem idx_inj {nx ny i j k i' j' k' : Int} (hi : 0 ≤ i) (hi2 : i < nx) (hj : 0 ≤ j) (hj2 : j < ny) (hi' : 0 ≤ i') (hi2' : i' < nx)
    (hj' : 0 ≤ j') (hj2' : j' < ny) (h : idx nx ny i j k = idx nx ny i' j' k') : i = i' ∧ j = j' ∧ k = k' := by
  unfold idx at h
  have e1 : i = i' := by
    have a := congrArg (· % nx) h
    simp only [Int.add_mul_emod_self_left] at a
    rwa [Int.emod_eq_of_lt hi hi2, Int.emod_eq_of_lt hi' hi2'] at a
  have e2 : j + ny * k = j' + ny * k' := by
    have : nx * (j + ny * k) = nx * (j' + ny * k') := by omega
    exact Int.eq_of_mul_eq_mul_left (by omega) this
  have e3 : j = j' := by
    have a := congrArg (· % ny) e2
    simp only [Int.add_mul_emod_self_left] at a
    rwa [Int.emod_eq_of_lt hj hj2, Int.emod_eq_of_lt hj' hj2'] at a
  refine ⟨e1, e3, ?_⟩
  exact Int.eq_of_mul_eq_mul_left (show ny ≠ 0 by omega) (by omega)

theorem idx_bound {nx ny nz i j k : Int} (hi : 0 ≤ i) (hi2 : i < nx) (hj : 0 ≤ j) (hj2 : j < ny) (hk : 0 ≤ k) (hk2 : k < nz) :
    0 ≤ idx nx ny i j k ∧ idx nx ny i j k < nx * ny * nz := by
  unfold idx
  have a : ny * (k + 1) ≤ ny * nz := Int.mul_le_mul_of_nonneg_left (by omega) (by omega)
  have b : j + ny * k + 1 ≤ ny * nz := by rw [mul_add] at a; omega
  have c : nx * (j + ny * k + 1) ≤ nx * (ny * nz) := Int.mul_le_mul_of_nonneg_left b (by omega)
  have d : 0 ≤ ny * k := Int.mul_nonneg (by omega) hk
  have e : 0 ≤ nx * (j + ny * k) := Int.mul_nonneg (by omega) (by omega)
  have c' : nx * (j + ny * k) + nx ≤ nx * (ny * nz) := by rw [mul_add _ _ 1] at c; omega
  rw [mul_assoc]
  constructor <;> omega

theorem blocks_eq {n : Int} (h : 2 ≤ n) : blocks n = (n + 11) / 14 := by
  unfold blocks
  rw [Int.tdiv_eq_ediv_of_nonneg (by omega), Int.tmod_eq_emod_of_nonneg (by omega)]
  split <;> omega

/-! ### Positions of a thread -/

/-- Where a thread stands: the first two reads, then for each trip `k` the load, the store into shared memory, the first barrier, the five reads
and the write, the second barrier; the end. -/
inductive Pos where
  | i0 | i1
  | ld (k : Nat) | st (k : Nat) | s1 (k : Nat)
  | b0 (k : Nat) | b1 (k : Nat) | b2 (k : Nat) | b3 (k : Nat) | b4 (k : Nat) | b5 (k : Nat) | s2 (k : Nat)
  | done
  deriving DecidableEq

section
variable {V : Type} [Add V] [Sub V] [Mul V] [Div V] [OfNat V 2]
variable (nx ny : Int) (N : Nat) (h2 : V) (f : Int → V)

/-- The element of the thread in plane `k`. -/
def own (t : Tid) (k : Int) : Int := idx nx ny (innerX t + t.x) (innerY t + t.y) k

/-- `zcenter` at the start of trip `k`. -/
def zc (t : Tid) (k : Nat) : V := if Active nx ny t then f (own nx ny t (k - 1)) else f (own nx ny t 0)
/-- `zhigh` at the start of trip `k`. -/
def zh (t : Tid) (k : Nat) : V := if Active nx ny t then f (own nx ny t k) else f (own nx ny t 1)

/-- What a thread loads in trip `k`. -/
def tile (t : Tid) (k : Int) : V := f (idx nx ny (outerX t) (outerY t) k + t.x + nx * t.y)

/-- A neighbour of the thread's element in plane `k`. -/
def nbr (t : Tid) (di dj k : Int) : V := f (idx nx ny (innerX t + t.x + di) (innerY t + t.y + dj) k)

def loopAt (t : Tid) (k : Nat) : Code V := opt2Loop nx ny h2 t (N + 1 - k) k (zc nx ny f t k) (zh nx ny f t k)

def storeAt (t : Tid) (k : Nat) : Code V :=
  opt2Store nx ny h2 t k (zc nx ny f t k) (zh nx ny f t k) fun a b => .sync (opt2Loop nx ny h2 t (N - k) (k + 1) a b)

def c5 (t : Tid) (k : Nat) (z l r d u : V) : Code V :=
  .write (.glob 1 (idx nx ny (innerX t) (innerY t) k + t.x + nx * t.y)) (value h2 (zh nx ny f t k) l r d u (zc nx ny f t k) z)
    (.sync (opt2Loop nx ny h2 t (N - k) (k + 1) (zh nx ny f t k) z))
def c4 (t : Tid) (k : Nat) (z l r d : V) : Code V :=
  .read (.sh (idx 16 16 (t.x + 1) (t.y + 1 + 1) 0)) fun u => c5 nx ny N h2 f t k z l r d u
def c3 (t : Tid) (k : Nat) (z l r : V) : Code V :=
  .read (.sh (idx 16 16 (t.x + 1) (t.y + 1 - 1) 0)) fun d => c4 nx ny N h2 f t k z l r d
def c2 (t : Tid) (k : Nat) (z l : V) : Code V :=
  .read (.sh (idx 16 16 (t.x + 1 + 1) (t.y + 1) 0)) fun r => c3 nx ny N h2 f t k z l r
def c1 (t : Tid) (k : Nat) (z : V) : Code V :=
  .read (.sh (idx 16 16 (t.x + 1 - 1) (t.y + 1) 0)) fun l => c2 nx ny N h2 f t k z l
def c0 (t : Tid) (k : Nat) : Code V := .read (.glob 0 (own nx ny t (k + 1))) fun z => c1 nx ny N h2 f t k z

/-- What is left to do at a position. -/
def codeOf (t : Tid) : Pos → Code V
  | .i0 => .read (.glob 0 (own nx ny t 0)) fun a => .read (.glob 0 (own nx ny t 1)) fun b => opt2Loop nx ny h2 t N 1 a b
  | .i1 => .read (.glob 0 (own nx ny t 1)) fun b => opt2Loop nx ny h2 t N 1 (f (own nx ny t 0)) b
  | .ld k => .read (.glob 0 (idx nx ny (outerX t) (outerY t) k + t.x + nx * t.y)) fun v =>
      .write (.sh (idx 16 16 t.x t.y 0)) v (.sync (storeAt nx ny N h2 f t k))
  | .st k => .write (.sh (idx 16 16 t.x t.y 0)) (tile nx ny f t k) (.sync (storeAt nx ny N h2 f t k))
  | .s1 k => .sync (storeAt nx ny N h2 f t k)
  | .b0 k => c0 nx ny N h2 f t k
  | .b1 k => c1 nx ny N h2 f t k (nbr nx ny f t 0 0 (k + 1))
  | .b2 k => c2 nx ny N h2 f t k (nbr nx ny f t 0 0 (k + 1)) (nbr nx ny f t (-1) 0 k)
  | .b3 k => c3 nx ny N h2 f t k (nbr nx ny f t 0 0 (k + 1)) (nbr nx ny f t (-1) 0 k) (nbr nx ny f t 1 0 k)
  | .b4 k => c4 nx ny N h2 f t k (nbr nx ny f t 0 0 (k + 1)) (nbr nx ny f t (-1) 0 k) (nbr nx ny f t 1 0 k) (nbr nx ny f t 0 (-1) k)
  | .b5 k => c5 nx ny N h2 f t k (nbr nx ny f t 0 0 (k + 1)) (nbr nx ny f t (-1) 0 k) (nbr nx ny f t 1 0 k) (nbr nx ny f t 0 (-1) k)
      (nbr nx ny f t 0 1 k)
  | .s2 k => .sync (loopAt nx ny N h2 f t (k + 1))
  | .done => .halt

/-- The start of trip `k`, or the end. -/
def startPos (t : Tid) (k : Nat) : Pos := if k ≤ N then (if Loads nx ny t then .ld k else .s1 k) else .done
/-- After the first barrier of trip `k`. -/
def midPos (t : Tid) (k : Nat) : Pos := if Active nx ny t then .b0 k else .s2 k

theorem code_start (t : Tid) {k : Nat} (hk : k ≤ N + 1) : loopAt nx ny N h2 f t k = codeOf nx ny N h2 f t (startPos nx ny N t k) := by
  unfold loopAt startPos
  by_cases h : k ≤ N
  · have e : N + 1 - k = (N - k) + 1 := by omega
    rw [if_pos h, e]
    by_cases hl : Loads nx ny t
    · simp only [opt2Loop, opt2Load, if_pos hl, codeOf, storeAt]
    · simp only [opt2Loop, opt2Load, if_neg hl, codeOf, storeAt]
  · have e : N + 1 - k = 0 := by omega
    rw [if_neg h, e]; rfl

theorem code_mid (t : Tid) {k : Nat} (hk : k ≤ N) : storeAt nx ny N h2 f t k = codeOf nx ny N h2 f t (midPos nx ny t k) := by
  unfold storeAt midPos opt2Store
  by_cases h : Active nx ny t
  · rw [if_pos h, if_pos h]; rfl
  · rw [if_neg h, if_neg h]
    simp only [codeOf, loopAt, zc, zh, if_neg h]
    rw [show N + 1 - (k + 1) = N - k by omega]; rfl

theorem loop_one (t : Tid) : opt2Loop nx ny h2 t N 1 (f (own nx ny t 0)) (f (own nx ny t 1)) = loopAt nx ny N h2 f t 1 := by
  unfold loopAt zc zh
  split <;> rfl

theorem loop_next (t : Tid) {k : Nat} (h : Active nx ny t) :
    opt2Loop nx ny h2 t (N - k) (k + 1) (zh nx ny f t k) (nbr nx ny f t 0 0 (k + 1)) = loopAt nx ny N h2 f t (k + 1) := by
  unfold loopAt zc zh nbr own
  simp only [if_pos h]
  rw [show N + 1 - (k + 1) = N - k by omega]
  push_cast
  rw [show (k : Int) + 1 - 1 = k by omega, Int.add_zero, Int.add_zero]

/-- The barrier interval of a position. -/
def phase : Pos → Nat
  | .i0 | .i1 => 2
  | .ld k | .st k | .s1 k => 2 * k
  | .b0 k | .b1 k | .b2 k | .b3 k | .b4 k | .b5 k | .s2 k => 2 * k + 1
  | .done => 2 * (N + 1)

/-- The number of steps made. -/
def num : Pos → Nat
  | .i0 => 0 | .i1 => 1
  | .ld k => 10 * k - 8 | .st k => 10 * k - 7 | .s1 k => 10 * k - 6
  | .b0 k => 10 * k - 5 | .b1 k => 10 * k - 4 | .b2 k => 10 * k - 3 | .b3 k => 10 * k - 2 | .b4 k => 10 * k - 1 | .b5 k => 10 * k
  | .s2 k => 10 * k + 1
  | .done => 10 * N + 2

/-- The planes below this one have been written by an active thread. -/
def written : Pos → Nat
  | .i0 | .i1 => 1
  | .ld k | .st k | .s1 k | .b0 k | .b1 k | .b2 k | .b3 k | .b4 k | .b5 k => k
  | .s2 k => k + 1
  | .done => N + 1

/-- The plane whose element the thread has in shared memory. -/
def loaded : Pos → Option Nat
  | .s1 k | .b0 k | .b1 k | .b2 k | .b3 k | .b4 k | .b5 k | .s2 k => some k
  | _ => none

/-- Positions a thread can be at. -/
def Good (t : Tid) : Pos → Prop
  | .i0 | .i1 | .done => True
  | .ld k | .st k => Loads nx ny t ∧ 1 ≤ k ∧ k ≤ N
  | .s1 k | .s2 k => 1 ≤ k ∧ k ≤ N
  | .b0 k | .b1 k | .b2 k | .b3 k | .b4 k | .b5 k => Active nx ny t ∧ 1 ≤ k ∧ k ≤ N

/-- The invariant. -/
structure Inv (L : Launch) (s : KState V) (pos : Tid → Pos) : Prop where
  code : ∀ t, L.Valid t → s.code t = codeOf nx ny N h2 f t (pos t)
  good : ∀ t, L.Valid t → Good nx ny N t (pos t)
  ph : ∀ t t', L.Valid t → L.Valid t' → t.b1 = t'.b1 → t.b2 = t'.b2 → phase N (pos t) = phase N (pos t')
  inp : s.glob 0 = f
  shm : ∀ t, L.Valid t → Loads nx ny t → ∀ k, loaded (pos t) = some k → s.sh t.b1 t.b2 (idx 16 16 t.x t.y 0) = tile nx ny f t k
  out : ∀ t, L.Valid t → Active nx ny t → ∀ k, 1 ≤ k → k < written N (pos t) →
    s.glob 1 (own nx ny t k) = value h2 (nbr nx ny f t 0 0 k) (nbr nx ny f t (-1) 0 k) (nbr nx ny f t 1 0 k) (nbr nx ny f t 0 (-1) k)
      (nbr nx ny f t 0 1 k) (nbr nx ny f t 0 0 (k - 1)) (nbr nx ny f t 0 0 (k + 1))
  rest : ∀ i, (∀ t k, L.Valid t → Active nx ny t → 1 ≤ k → k < written N (pos t) → i ≠ own nx ny t k) → s.glob 1 i = f i

/-! ### A thread's own step -/

variable {nx ny N h2 f}

theorem own_inj {t t' : Tid} {k k' : Int} (h : Active nx ny t) (h' : Active nx ny t') (e : own nx ny t k = own nx ny t' k') :
    t = t' ∧ k = k' := by
  unfold own at e
  obtain ⟨tb1, tb2, tx, ty⟩ := t
  obtain ⟨tb1', tb2', tx', ty'⟩ := t'
  simp only [Active, innerX, innerY] at *
  obtain ⟨a, b, c⟩ := idx_inj (by omega) (by omega) (by omega) (by omega) (by omega) (by omega) (by omega) (by omega) e
  refine ⟨?_, c⟩
  simp only [Tid.mk.injEq]
  omega

theorem oidx_eq (t : Tid) (k : Int) : idx nx ny (innerX t) (innerY t) k + t.x + nx * t.y = own nx ny t k := by
  unfold own idx; ring

theorem sidx_inj {t t' : Tid} (hx : t.x < 16) (hy : t.y < 16) (hx' : t'.x < 16) (hy' : t'.y < 16)
    (e : idx 16 16 t.x t.y 0 = idx 16 16 t'.x t'.y 0) : t.x = t'.x ∧ t.y = t'.y := by
  obtain ⟨a, b, -⟩ := idx_inj (by omega) (by omega) (by omega) (by omega) (by omega) (by omega) (by omega) (by omega) e
  omega

/-- What reading the shared array gives between the barriers of trip `k`. -/
theorem Inv.shared {L : Launch} (h16x : L.wx = 16) (h16y : L.wy = 16) {s : KState V} {pos : Tid → Pos} (I : Inv nx ny N h2 f L s pos) {t : Tid}
    (hv : L.Valid t) (ha : Active nx ny t) {k : Nat} (hp : phase N (pos t) = 2 * k + 1) (ox oy : Nat) (hox : ox ≤ 2) (hoy : oy ≤ 2) :
    s.sh t.b1 t.b2 (idx 16 16 (t.x + ox) (t.y + oy) 0) = nbr nx ny f t (ox - 1) (oy - 1) k := by
  obtain ⟨b1, b2, x, y⟩ := t
  let t' : Tid := ⟨b1, b2, x + ox, y + oy⟩
  have ha' := ha
  simp only [Active, innerX, innerY] at ha'
  have hv' : L.Valid t' := ⟨hv.1, hv.2.1, by simp only [t', h16x]; omega, by simp only [t', h16y]; omega⟩
  have hl : Loads nx ny t' := by
    simp only [Loads, outerX, outerY, innerX, innerY, t']; push_cast; constructor <;> omega
  have e := I.ph t' ⟨b1, b2, x, y⟩ hv' hv rfl rfl
  rw [hp] at e
  have hld : loaded (pos t') = some k := by
    revert e
    cases pos t' <;> simp only [phase, loaded, Option.some.injEq] <;> omega
  have r := I.shm t' hv' hl k hld
  simp only [t'] at r
  push_cast at r
  rw [r]
  simp only [tile, nbr, idx, outerX, outerY, innerX, innerY]
  congr 1
  push_cast
  ring

/-- A step of thread `t` that leaves memory as it was, as far as the invariant goes. -/
theorem Inv.move {L : Launch} {s s' : KState V} {pos : Tid → Pos} (I : Inv nx ny N h2 f L s pos) {t : Tid} {p : Pos}
    (hc : s'.code = Function.update s.code t (codeOf nx ny N h2 f t p)) (hg : s'.glob 0 = s.glob 0)
    (hgood : Good nx ny N t p) (hph : phase N p = phase N (pos t))
    (hsh : ∀ u, L.Valid u → u ≠ t → Loads nx ny u → s'.sh u.b1 u.b2 (idx 16 16 u.x u.y 0) = s.sh u.b1 u.b2 (idx 16 16 u.x u.y 0))
    (hsht : Loads nx ny t → ∀ k, loaded p = some k → s'.sh t.b1 t.b2 (idx 16 16 t.x t.y 0) = tile nx ny f t k)
    (hout : ∀ u, L.Valid u → Active nx ny u → ∀ k, 1 ≤ k → k < written N (Function.update pos t p u) →
      s'.glob 1 (own nx ny u k) = value h2 (nbr nx ny f u 0 0 k) (nbr nx ny f u (-1) 0 k) (nbr nx ny f u 1 0 k) (nbr nx ny f u 0 (-1) k)
      (nbr nx ny f u 0 1 k) (nbr nx ny f u 0 0 (k - 1)) (nbr nx ny f u 0 0 (k + 1)))
    (hrest : ∀ i, (∀ u k, L.Valid u → Active nx ny u → 1 ≤ k → k < written N (Function.update pos t p u) → i ≠ own nx ny u k) →
      s'.glob 1 i = f i) : Inv nx ny N h2 f L s' (Function.update pos t p) := by
  refine ⟨?_, ?_, ?_, hg.trans I.inp, ?_, hout, hrest⟩
  · intro u hu
    rw [hc]
    by_cases e : u = t
    · subst e; simp
    · simp only [Function.update_of_ne e]; exact I.code u hu
  · intro u hu
    by_cases e : u = t
    · subst e; simpa using hgood
    · simp only [Function.update_of_ne e]; exact I.good u hu
  · have key : ∀ u, phase N (Function.update pos t p u) = phase N (pos u) := by
      intro u
      by_cases e : u = t
      · subst e; simpa using hph
      · simp only [Function.update_of_ne e]
    intro u u' hu hu' a b
    rw [key, key]; exact I.ph u u' hu hu' a b
  · intro u hu hl k hk
    by_cases e : u = t
    · subst e; exact hsht hl k (by simpa using hk)
    · simp only [Function.update_of_ne e] at hk
      rw [hsh u hu e hl]; exact I.shm u hu hl k hk

theorem written_update {pos : Tid → Pos} {t : Tid} {p : Pos} (h : Active nx ny t → written N p = written N (pos t)) (u : Tid)
    (hu : Active nx ny u) : written N (Function.update pos t p u) = written N (pos u) := by
  by_cases e : u = t
  · subst e; simpa using h hu
  · simp only [Function.update_of_ne e]

theorem Inv.moveRead {L : Launch} {s : KState V} {pos : Tid → Pos} (I : Inv nx ny N h2 f L s pos) {t : Tid} {p : Pos} {c : Code V}
    (hv : L.Valid t) (hc : c = codeOf nx ny N h2 f t p)
    (hgood : Good nx ny N t p) (hph : phase N p = phase N (pos t)) (hld : Loads nx ny t → ∀ k, loaded p = some k → loaded (pos t) = some k)
    (hw : Active nx ny t → written N p = written N (pos t)) :
    Inv nx ny N h2 f L { s with code := Function.update s.code t c } (Function.update pos t p) := by
  subst hc
  refine I.move rfl rfl hgood hph (fun _ _ _ _ => rfl) (fun hl k hk => I.shm t hv hl k (hld hl k hk)) ?_ ?_
  · intro u hu ha k hk hk2
    rw [written_update hw u ha] at hk2
    exact I.out u hu ha k hk hk2
  · intro i hi
    refine I.rest i fun u k hu ha hk hk2 => hi u k hu ha hk ?_
    rw [written_update hw u ha]; exact hk2

theorem num_update_le {pos : Tid → Pos} {t : Tid} {p : Pos} (h : num N (pos t) < num N p) :
    (∀ u, num N (pos u) ≤ num N (Function.update pos t p u)) ∧ num N (pos t) < num N (Function.update pos t p t) := by
  refine ⟨fun u => ?_, by simpa using h⟩
  by_cases e : u = t
  · subst e; simpa using h.le
  · simp only [Function.update_of_ne e]; exact le_rfl

theorem good_start (t : Tid) {k : Nat} (h : 1 ≤ k) : Good nx ny N t (startPos nx ny N t k) := by
  unfold startPos
  split
  · split
    · exact ⟨‹_›, h, ‹_›⟩
    · exact ⟨h, ‹_›⟩
  · trivial

theorem phase_start (t : Tid) {k : Nat} (h : k ≤ N + 1) : phase N (startPos nx ny N t k) = 2 * k := by
  unfold startPos
  split
  · split <;> rfl
  · simp only [phase]; omega

theorem written_start (t : Tid) {k : Nat} (h : k ≤ N + 1) : written N (startPos nx ny N t k) = k := by
  unfold startPos
  split
  · split <;> rfl
  · simp only [written]; omega

theorem num_start (t : Tid) {k : Nat} (h : k ≤ N + 1) : 10 * k - 8 ≤ num N (startPos nx ny N t k) := by
  unfold startPos
  split
  · split <;> simp only [num] <;> omega
  · simp only [num]; omega

theorem loaded_start (t : Tid) (hl : Loads nx ny t) (k : Nat) : loaded (startPos nx ny N t k) = none := by
  unfold startPos
  rw [if_pos hl]
  split <;> rfl

theorem step_read {L : Launch} (h16x : L.wx = 16) (h16y : L.wy = 16) {s : KState V} {pos : Tid → Pos} (I : Inv nx ny N h2 f L s pos) {t : Tid}
    (hv : L.Valid t) {a : Loc} {k : V → Code V} (hc : s.code t = .read a k) :
    ∃ p, Inv nx ny N h2 f L { s with code := Function.update s.code t (k (s.fetch t a)) } (Function.update pos t p) ∧ num N (pos t) < num N p := by
  rw [I.code t hv] at hc
  have hg := I.good t hv
  rcases hp : pos t with _ | _ | j | j | j | j | j | j | j | j | j | j | _ <;> rw [hp] at hc hg <;>
    simp only [codeOf, c0, c1, c2, c3, c4, c5] at hc <;> first | (cases hc; done) | (injection hc with ha hk; subst ha hk)
  · refine ⟨.i1, I.moveRead hv ?_ trivial (by rw [hp]; rfl) (fun _ k hk => by simp [loaded] at hk) (fun _ => by rw [hp]; rfl), by simp [num]⟩
    simp only [KState.fetch, I.inp]; rfl
  · refine ⟨startPos nx ny N t 1, I.moveRead hv ?_ (good_start t le_rfl) (by rw [hp, phase_start t (by omega)]; rfl)
      (fun hl k hk => by simp [loaded_start t hl] at hk) (fun _ => by rw [hp, written_start t (by omega)]; rfl), ?_⟩
    · simp only [KState.fetch, I.inp]
      rw [loop_one, code_start _ _ _ _ _ _ (by omega)]
    · have := num_start (nx := nx) (ny := ny) (N := N) t (k := 1) (by omega)
      change 1 < _; omega
  · refine ⟨.st j, I.moveRead hv ?_ hg (by rw [hp]; rfl) (fun _ k hk => by simp [loaded] at hk) (fun _ => by rw [hp]; rfl), ?_⟩
    · simp only [KState.fetch, I.inp]; rfl
    · have := hg.2.1
      simp only [num]; omega
  · refine ⟨.b1 j, I.moveRead hv ?_ hg (by rw [hp]; rfl) (fun _ k hk => by rw [hp]; exact hk) (fun _ => by rw [hp]; rfl), ?_⟩
    · simp only [KState.fetch, I.inp, codeOf]
      simp only [nbr, own, Int.add_zero]; rfl
    · have := hg.2.1
      simp only [num]; omega
  · refine ⟨.b2 j, I.moveRead hv ?_ hg (by rw [hp]; rfl) (fun _ k hk => by rw [hp]; exact hk) (fun _ => by rw [hp]; rfl), ?_⟩
    · have e := I.shared h16x h16y hv hg.1 (by rw [hp]; rfl) 0 1 (by omega) (by omega)
      push_cast at e
      simp only [KState.fetch]
      rw [show (t.x : Int) + 1 - 1 = t.x + 0 by omega, e]; rfl
    · have := hg.2.1
      simp only [num]; omega
  · refine ⟨.b3 j, I.moveRead hv ?_ hg (by rw [hp]; rfl) (fun _ k hk => by rw [hp]; exact hk) (fun _ => by rw [hp]; rfl), ?_⟩
    · have e := I.shared h16x h16y hv hg.1 (by rw [hp]; rfl) 2 1 (by omega) (by omega)
      push_cast at e
      simp only [KState.fetch]
      rw [show (t.x : Int) + 1 + 1 = t.x + 2 by omega, e]; rfl
    · have := hg.2.1
      simp only [num]; omega
  · refine ⟨.b4 j, I.moveRead hv ?_ hg (by rw [hp]; rfl) (fun _ k hk => by rw [hp]; exact hk) (fun _ => by rw [hp]; rfl), ?_⟩
    · have e := I.shared h16x h16y hv hg.1 (by rw [hp]; rfl) 1 0 (by omega) (by omega)
      push_cast at e
      simp only [KState.fetch]
      rw [show (t.y : Int) + 1 - 1 = t.y + 0 by omega, e]; rfl
    · have := hg.2.1
      simp only [num]; omega
  · refine ⟨.b5 j, I.moveRead hv ?_ hg (by rw [hp]; rfl) (fun _ k hk => by rw [hp]; exact hk) (fun _ => by rw [hp]; rfl), ?_⟩
    · have e := I.shared h16x h16y hv hg.1 (by rw [hp]; rfl) 1 2 (by omega) (by omega)
      push_cast at e
      simp only [KState.fetch]
      rw [show (t.y : Int) + 1 + 1 = t.y + 2 by omega, e]; rfl
    · have := hg.2.1
      simp only [num]; omega

theorem step_write {L : Launch} (h16x : L.wx = 16) (h16y : L.wy = 16) {s : KState V} {pos : Tid → Pos} (I : Inv nx ny N h2 f L s pos) {t : Tid}
    (hv : L.Valid t) {a : Loc} {v : V} {c : Code V} (hc : s.code t = .write a v c) :
    ∃ p, Inv nx ny N h2 f L (s.put t a v c) (Function.update pos t p) ∧ num N (pos t) < num N p := by
  rw [I.code t hv] at hc
  have hg := I.good t hv
  rcases hp : pos t with _ | _ | j | j | j | j | j | j | j | j | j | j | _ <;> rw [hp] at hc hg <;>
    simp only [codeOf, c0, c1, c2, c3, c4, c5] at hc <;> first | (cases hc; done) | (injection hc with ha hk hk'; subst ha hk hk')
  · refine ⟨.s1 j, I.move (t := t) (p := .s1 j) rfl ?_ hg.2 (by rw [hp]; rfl) ?_ ?_ ?_ ?_, ?_⟩
    · funext i; simp [KState.put]
    · intro u hu hne hl
      simp only [KState.put, Loc.sh.injEq]
      rw [if_neg]
      rintro ⟨e, e1, e2⟩
      have q := sidx_inj (h16x ▸ hv.2.2.1) (h16y ▸ hv.2.2.2) (h16x ▸ hu.2.2.1) (h16y ▸ hu.2.2.2) e
      apply hne
      cases u; cases t; simp_all
    · intro hl k hk
      simp only [loaded, Option.some.injEq] at hk
      subst hk
      simp [KState.put]
    · intro u hu ha k hk hk2
      rw [written_update (fun _ => by rw [hp]; rfl) u ha] at hk2
      rw [← I.out u hu ha k hk hk2]
      simp [KState.put]
    · intro i hi
      have := I.rest i fun u k hu ha hk hk2 => hi u k hu ha hk (by rw [written_update (fun _ => by rw [hp]; rfl) u ha]; exact hk2)
      rw [← this]; simp [KState.put]
    · have := hg.2.1
      simp only [num]; omega
  · refine ⟨.s2 j, I.move (t := t) (p := .s2 j) ?_ ?_ hg.2 (by rw [hp]; rfl) ?_ ?_ ?_ ?_, ?_⟩
    · simp only [KState.put]
      rw [loop_next _ _ _ _ _ _ hg.1]; rfl
    · funext i; simp [KState.put]
    · intro u hu hne hl
      simp [KState.put]
    · intro hl k hk
      have := I.shm t hv hl k (by rw [hp]; exact hk)
      rw [← this]; simp [KState.put]
    · intro u hu ha k hk hk2
      simp only [KState.put, Loc.glob.injEq, true_and, oidx_eq]
      by_cases e : own nx ny t j = own nx ny u k
      · rw [if_pos e]
        obtain ⟨e1, e2⟩ := own_inj hg.1 ha e
        subst e1
        obtain rfl : j = k := by omega
        simp only [zh, zc, if_pos ha, nbr, own, Int.add_zero]
      · rw [if_neg e]
        refine I.out u hu ha k hk ?_
        by_cases e1 : u = t
        · subst e1
          simp only [Function.update_self, written] at hk2
          rw [hp]; simp only [written]
          by_contra hcon
          exact e (by rw [show k = j by omega])
        · simpa only [Function.update_of_ne e1] using hk2
    · intro i hi
      have hne : ¬ own nx ny t j = i := fun e => hi t j hv hg.1 hg.2.1 (by simp [written]) e.symm
      simp only [KState.put, Loc.glob.injEq, true_and, oidx_eq]
      rw [if_neg hne]
      refine I.rest i fun u k hu ha hk hk2 => hi u k hu ha hk ?_
      by_cases e1 : u = t
      · subst e1
        rw [hp] at hk2
        simp only [Function.update_self, written] at *; omega
      · simpa only [Function.update_of_ne e1] using hk2
    · simp only [num]; omega

/-! ### A barrier -/

/-- Where a barrier takes a thread. -/
def passPos (nx ny : Int) (N : Nat) (t : Tid) : Pos → Pos
  | .s1 k => midPos nx ny t k
  | .s2 k => startPos nx ny N t (k + 1)
  | p => p

theorem atSync {t : Tid} {p : Pos} {c : Code V} (h : codeOf nx ny N h2 f t p = .sync c) :
    (∃ k, p = .s1 k ∧ c = storeAt nx ny N h2 f t k) ∨ ∃ k, p = .s2 k ∧ c = loopAt nx ny N h2 f t (k + 1) := by
  cases p <;> simp only [codeOf, c0, c1, c2, c3, c4, c5] at h <;> first | (cases h; done) | injection h with h
  · exact .inl ⟨_, rfl, h.symm⟩
  · exact .inr ⟨_, rfl, h.symm⟩

theorem phase_mid (t : Tid) (k : Nat) : phase N (midPos nx ny t k) = 2 * k + 1 := by
  unfold midPos; split <;> rfl

theorem step_barrier {L : Launch} (hx : 0 < L.wx) (hy : 0 < L.wy) {s : KState V} {pos : Tid → Pos} (I : Inv nx ny N h2 f L s pos) {p q : Nat}
    (hp : p < L.gx) (hq : q < L.gy) (hs : ∀ t, L.Valid t → t.b1 = p → t.b2 = q → ∃ c, s.code t = .sync c) :
    ∃ pos', Inv nx ny N h2 f L { s with code := fun t => if t.b1 = p ∧ t.b2 = q then (s.code t).pass else s.code t } pos' ∧
      (∀ t, L.Valid t → num N (pos t) ≤ num N (pos' t)) ∧ ∃ t, L.Valid t ∧ num N (pos t) < num N (pos' t) := by
  let pos' : Tid → Pos := fun t => if t.b1 = p ∧ t.b2 = q then passPos nx ny N t (pos t) else pos t
  have key : ∀ t, L.Valid t → (t.b1 = p ∧ t.b2 = q) →
      (∃ k, pos t = .s1 k ∧ pos' t = midPos nx ny t k ∧ (1 ≤ k ∧ k ≤ N) ∧ s.code t = .sync (storeAt nx ny N h2 f t k)) ∨
      (∃ k, pos t = .s2 k ∧ pos' t = startPos nx ny N t (k + 1) ∧ (1 ≤ k ∧ k ≤ N) ∧ s.code t = .sync (loopAt nx ny N h2 f t (k + 1))) := by
    intro t hv hb
    obtain ⟨c, hc⟩ := hs t hv hb.1 hb.2
    have hg := I.good t hv
    have hc' := hc
    rw [I.code t hv] at hc'
    rcases atSync hc' with ⟨k, e, e2⟩ | ⟨k, e, e2⟩
    · left; rw [e] at hg
      exact ⟨k, e, by simp only [pos', if_pos hb, e, passPos], hg, by rw [hc, e2]⟩
    · right; rw [e] at hg
      exact ⟨k, e, by simp only [pos', if_pos hb, e, passPos], hg, by rw [hc, e2]⟩
  have nkey : ∀ t, ¬ (t.b1 = p ∧ t.b2 = q) → pos' t = pos t := fun t h => by simp only [pos', if_neg h]
  have hnum : ∀ t, L.Valid t → (t.b1 = p ∧ t.b2 = q) → num N (pos t) < num N (pos' t) := by
    intro t hv hb
    rcases key t hv hb with ⟨k, e, e', hk, -⟩ | ⟨k, e, e', hk, -⟩
    · rw [e, e']
      unfold midPos
      split <;> simp only [num] <;> omega
    · rw [e, e']
      have := num_start (nx := nx) (ny := ny) (N := N) t (k := k + 1) (by omega)
      simp only [num] at *; omega
  have hwr : ∀ t, L.Valid t → Active nx ny t → written N (pos' t) = written N (pos t) := by
    intro t hv ha
    by_cases hb : t.b1 = p ∧ t.b2 = q
    · rcases key t hv hb with ⟨k, e, e', hk, -⟩ | ⟨k, e, e', hk, -⟩
      · rw [e, e', midPos, if_pos ha]; rfl
      · rw [e, e', written_start t (by omega)]; rfl
    · rw [nkey t hb]
  refine ⟨pos', ⟨?_, ?_, ?_, I.inp, ?_, ?_, ?_⟩, ?_, ?_⟩
  · intro t hv
    by_cases hb : t.b1 = p ∧ t.b2 = q
    · simp only [if_pos hb]
      rcases key t hv hb with ⟨k, e, e', hk, hc⟩ | ⟨k, e, e', hk, hc⟩
      · rw [hc, e', ← code_mid _ _ _ _ _ _ hk.2]; rfl
      · rw [hc, e', ← code_start _ _ _ _ _ _ (by omega)]; rfl
    · simp only [if_neg hb, nkey t hb]; exact I.code t hv
  · intro t hv
    by_cases hb : t.b1 = p ∧ t.b2 = q
    · rcases key t hv hb with ⟨k, e, e', hk, hc⟩ | ⟨k, e, e', hk, hc⟩
      · rw [e']; unfold midPos
        split
        · exact ⟨‹_›, hk⟩
        · exact hk
      · rw [e']; exact good_start t (by omega)
    · rw [nkey t hb]; exact I.good t hv
  · intro t t' hv hv' e1 e2
    by_cases hb : t.b1 = p ∧ t.b2 = q
    · have hb' : t'.b1 = p ∧ t'.b2 = q := ⟨e1 ▸ hb.1, e2 ▸ hb.2⟩
      have h := I.ph t t' hv hv' e1 e2
      rcases key t hv hb with ⟨k, e, e', hk, -⟩ | ⟨k, e, e', hk, -⟩ <;> rcases key t' hv' hb' with ⟨m, d, d', hm, -⟩ | ⟨m, d, d', hm, -⟩ <;>
        rw [e, d] at h <;> rw [e', d'] <;> simp only [phase] at h
      · rw [phase_mid, phase_mid]; omega
      · omega
      · omega
      · rw [phase_start t (by omega), phase_start t' (by omega)]; omega
    · have hb' : ¬ (t'.b1 = p ∧ t'.b2 = q) := fun h => hb ⟨e1.trans h.1, e2.trans h.2⟩
      rw [nkey t hb, nkey t' hb']; exact I.ph t t' hv hv' e1 e2
  · intro t hv hl k hk
    refine I.shm t hv hl k ?_
    by_cases hb : t.b1 = p ∧ t.b2 = q
    · rcases key t hv hb with ⟨m, e, e', hm, -⟩ | ⟨m, e, e', hm, -⟩
      · rw [e]; rw [e'] at hk
        unfold midPos at hk
        split at hk <;> exact hk
      · rw [e', loaded_start t hl] at hk; cases hk
    · rw [nkey t hb] at hk; exact hk
  · intro t hv ha k hk hk2
    rw [hwr t hv ha] at hk2
    exact I.out t hv ha k hk hk2
  · intro i hi
    exact I.rest i fun t k hv ha hk hk2 => hi t k hv ha hk (by rw [hwr t hv ha]; exact hk2)
  · intro t hv
    by_cases hb : t.b1 = p ∧ t.b2 = q
    · exact (hnum t hv hb).le
    · rw [nkey t hb]
  · have hv : L.Valid ⟨p, q, 0, 0⟩ := ⟨hp, hq, hx, hy⟩
    exact ⟨_, hv, hnum _ hv ⟨rfl, rfl⟩⟩

theorem step_inv {L : Launch} (h16x : L.wx = 16) (h16y : L.wy = 16) {s s' : KState V} {pos : Tid → Pos} (I : Inv nx ny N h2 f L s pos)
    (h : KStep L s s') : ∃ pos', Inv nx ny N h2 f L s' pos' ∧ (∀ t, L.Valid t → num N (pos t) ≤ num N (pos' t)) ∧
      ∃ t, L.Valid t ∧ num N (pos t) < num N (pos' t) := by
  cases h with
  | read hv hc _ =>
    obtain ⟨p, a, b⟩ := step_read h16x h16y I hv hc
    exact ⟨_, a, fun t _ => (num_update_le b).1 t, _, hv, (num_update_le b).2⟩
  | write hv hc _ =>
    obtain ⟨p, a, b⟩ := step_write h16x h16y I hv hc
    exact ⟨_, a, fun t _ => (num_update_le b).1 t, _, hv, (num_update_le b).2⟩
  | barrier p q hp hq hs => exact step_barrier (by omega) (by omega) I hp hq hs

/-! ### The number of steps -/

/-- The threads of a launch. -/
def threads (L : Launch) : Finset Tid :=
  ((Finset.range L.gx ×ˢ Finset.range L.gy) ×ˢ (Finset.range L.wx ×ˢ Finset.range L.wy)).image fun p => ⟨p.1.1, p.1.2, p.2.1, p.2.2⟩

theorem mem_threads {L : Launch} {t : Tid} : t ∈ threads L ↔ L.Valid t := by
  unfold threads Launch.Valid
  simp only [Finset.mem_image, Finset.mem_product, Finset.mem_range, Prod.exists]
  constructor
  · rintro ⟨a, b, c, d, h, rfl⟩; exact ⟨h.1.1, h.1.2, h.2.1, h.2.2⟩
  · rintro h; exact ⟨t.b1, t.b2, t.x, t.y, ⟨⟨h.1, h.2.1⟩, h.2.2.1, h.2.2.2⟩, rfl⟩

theorem card_threads (L : Launch) : (threads L).card ≤ L.gx * L.gy * (L.wx * L.wy) := by
  unfold threads
  refine Finset.card_image_le.trans ?_
  simp

theorem num_le {t : Tid} {p : Pos} (h : Good nx ny N t p) : num N p ≤ 10 * N + 2 := by
  cases p <;> simp only [num, Good] at * <;> omega

theorem run_inv {L : Launch} (h16x : L.wx = 16) (h16y : L.wy = 16) {s0 s : KState V} {n : Nat} {pos0 : Tid → Pos}
    (I0 : Inv nx ny N h2 f L s0 pos0) (h : KRun L s0 n s) :
    ∃ pos, Inv nx ny N h2 f L s pos ∧ n ≤ ∑ t ∈ threads L, num N (pos t) := by
  induction h with
  | start => exact ⟨pos0, I0, Nat.zero_le _⟩
  | step _ hs ih =>
    obtain ⟨pos, I, hn⟩ := ih
    obtain ⟨pos', I', a, t, hv, b⟩ := step_inv h16x h16y I hs
    refine ⟨pos', I', ?_⟩
    have := Finset.sum_lt_sum (s := threads L) (f := fun t => num N (pos t)) (g := fun t => num N (pos' t))
      (fun u hu => a u (mem_threads.1 hu)) ⟨t, mem_threads.2 hv, b⟩
    omega

theorem Inv.sum_le {L : Launch} {s : KState V} {pos : Tid → Pos} (I : Inv nx ny N h2 f L s pos) :
    ∑ t ∈ threads L, num N (pos t) ≤ L.gx * L.gy * (L.wx * L.wy) * (10 * N + 2) := by
  refine (Finset.sum_le_card_nsmul _ _ (10 * N + 2) fun t ht => num_le (I.good t (mem_threads.1 ht))).trans ?_
  rw [nsmul_eq_mul, Nat.cast_id]
  exact Nat.mul_le_mul_right _ (card_threads L)

end
end GpuKern
end SpatialOps
