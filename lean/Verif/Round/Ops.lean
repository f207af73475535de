import Verif.Round.Lemmas
import Verif.Conserve.Props

/-!
# Rounding errors of the registered operators
-/

namespace SpatialOps
namespace Round

open Nebo Stencil

theorem pair_lists {A : Type} {ps : Pts IntVec} {cs : Pts A} {w : Pts (IntVec × A)} (h : pair ps cs = some w) :
    w.toList.map Prod.fst = ps.toList ∧ w.toList.map Prod.snd = cs.toList := by
  induction ps generalizing cs w with
  | one p =>
    cases cs with
    | one c => simp only [pair, Option.some.injEq] at h; subst h; simp [Pts.toList]
    | more cs c => simp [pair] at h
  | more e p ih =>
    cases cs with
    | one c => simp [pair] at h
    | more cs c =>
      simp only [pair] at h
      cases hp : pair e cs with
      | none => rw [hp] at h; simp at h
      | some w' =>
        rw [hp] at h; simp only [Option.map_some, Option.some.injEq] at h; subst h
        simp [Pts.toList, ih hp]

theorem toList_pmap {A B : Type} (f : A → B) (p : Pts A) : (pmap f p).toList = p.toList.map f := by
  induction p with
  | one a => rfl
  | more e a ih => simp [pmap, Pts.toList, ih]

theorem sum_toList {A K : Type} [AddMonoid K] (f : A → K) (p : Pts A) : p.sum f = (p.toList.map f).sum := by
  induction p with
  | one a => simp [Pts.sum, Pts.toList]
  | more e a ih => simp [Pts.sum, Pts.toList, ih]

section
variable {K : Type} [Field K] {rnd : K → K}

theorem val_add (a b : Fl rnd) : (a + b).val = rnd (a.val + b.val) := rfl
theorem val_mul (a b : Fl rnd) : (a * b).val = rnd (a.val * b.val) := rfl
theorem val_div (a b : Fl rnd) : (a / b).val = rnd (a.val / b.val) := rfl
theorem val_neg (a : Fl rnd) : (-a).val = -a.val := rfl
theorem val_one : (1 : Fl rnd).val = 1 := rfl
theorem val_nat (n : Nat) : ((n : Nat) : Fl rnd).val = n := rfl
theorem val_two : (2 : Fl rnd).val = 2 := by show ((2 : Nat) : K) = 2; norm_num
theorem val_four : (4 : Fl rnd).val = 4 := by show ((4 : Nat) : K) = 4; norm_num

theorem list_sum_mul {A : Type} (l : List A) (f : A → K) (k : K) : (l.map fun a => f a * k).sum = (l.map f).sum * k := by
  induction l with
  | nil => simp
  | cons a l ih => simp [ih, add_mul]

end

section
variable {K : Type} [Field K] [LinearOrder K] [IsStrictOrderedRing K] {u : K} {rnd : K → K}

/-- The weighted sum an operator computes, and its size. -/
def wsum (w : Pts (IntVec × Int)) (a : IntVec → K) : K := (w.toList.map fun q => a q.1 * (q.2 : K)).sum
def wabs (w : Pts (IntVec × Int)) (a : IntVec → K) : K := (w.toList.map fun q => |a q.1| * |(q.2 : K)|).sum

theorem err_apply (hf : Format u rnd) (h : Dir → Fl rnd) (t : OpType) (cf : Coef) (src : FieldObj) (w : Pts (IntVec × Int))
    (den : Nat) (s : Option Dir) (hw : weights t cf = some (w, den, s)) :
    ∃ e : Expr (Fl rnd) .num, t.apply (cf.build h) (.field src) = some e ∧ ∀ (m : Mem (Fl rnd)) (c : IntVec),
      Err u (w.toList.length + 1) (e.value m c : Fl rnd).val
        (wsum w (fun p => (valueAt m src (c + p)).val) * factor (fun d => (h d).val) den s)
        (wabs w (fun p => (valueAt m src (c + p)).val) * |factor (fun d => (h d).val) den s|) := by
  have hu := hf.nonneg
  have key : ∀ (o : Tag) (pts : Pts IntVec) (sr de : FieldType) (cs : Pts Int) (cs' : Pts (Fl rnd)) (f : Int → Fl rnd)
      (den : Nat) (s : Option Dir), cs' = pmap f cs →
      (∀ k ∈ cs.toList, Err u 1 (f k).val ((k : K) * factor (fun d => (h d).val) den s) |(k : K) * factor (fun d => (h d).val) den s|) →
      ∀ w, pair pts cs = some w →
      ∃ e : Expr (Fl rnd) .num, (OpType.coefs o pts sr de).apply (some cs') (.field src) = some e ∧
        ∀ (m : Mem (Fl rnd)) (c : IntVec), Err u (w.toList.length + 1) (e.value m c : Fl rnd).val
        (wsum w (fun p => (valueAt m src (c + p)).val) * factor (fun d => (h d).val) den s)
        (wabs w (fun p => (valueAt m src (c + p)).val) * |factor (fun d => (h d).val) den s|) := by
    intro o pts sr de cs cs' f den s hcs hk w hp
    refine ⟨.stencil (pmap (fun q => (q.1, f q.2)) w) (.field src), ?_, ?_⟩
    · simp only [OpType.apply, hcs, pair_pmap, hp, Option.map_some]
    · intro m c
      have := err_pts hf w (fun q => valueAt m src (c + q.1) * f q.2)
        (fun q => (valueAt m src (c + q.1)).val * ((q.2 : K) * factor (fun d => (h d).val) den s))
        (fun q => |(valueAt m src (c + q.1)).val| * |(q.2 : K) * factor (fun d => (h d).val) den s|) 2 fun q hq => by
          have hq2 : q.2 ∈ cs.toList := by rw [← (pair_lists hp).2]; exact List.mem_map_of_mem hq
          have := ((Err.self (u := u) (valueAt m src (c + q.1)).val).mul hu (hk q.2 hq2)).rounded hf
          exact this
      have hl : 0 < w.toList.length := by cases w <;> simp [Pts.toList]
      rw [show 2 + (w.toList.length - 1) = w.toList.length + 1 by omega] at this
      have e1 : ((Expr.stencil (pmap (fun q => (q.1, f q.2)) w) (.field src)).value m c : Fl rnd) =
          w.sum fun q => valueAt m src (c + q.1) * f q.2 := by
        simp only [Expr.value]
        rw [sum_pmap]
        rfl
      rw [e1]
      unfold wsum wabs
      rw [← list_sum_mul, ← list_sum_mul]
      simp only [abs_mul, mul_assoc] at this ⊢
      exact this
  have hone : ∀ x : K, Err u 1 (rnd x) x |x| := fun x => (Err.self x).rounded hf
  cases t with
  | coefs o pts sr de =>
    cases cf with
    | half =>
      simp only [weights] at hw
      cases hp : pair pts (coef2 1 1 : Pts Int) with
      | none => rw [hp] at hw; simp at hw
      | some w' =>
        rw [hp] at hw; simp only [Option.map_some, Option.some.injEq, Prod.mk.injEq] at hw
        obtain ⟨rfl, rfl, rfl⟩ := hw
        refine key o pts sr de _ _ (fun _ => 1 / 2) 2 none rfl (fun k hk => ?_) _ hp
        have : k = 1 := by simpa [coef2, coef1, addCoef, Pts.toList] using hk
        subst this
        rw [val_div, val_one, val_two]
        simpa [factor] using hone (1 / 2)
    | per d =>
      simp only [weights] at hw
      cases hp : pair pts (coef2 (-1) 1 : Pts Int) with
      | none => rw [hp] at hw; simp at hw
      | some w' =>
        rw [hp] at hw; simp only [Option.map_some, Option.some.injEq, Prod.mk.injEq] at hw
        obtain ⟨rfl, rfl, rfl⟩ := hw
        refine key o pts sr de _ _ (fun k => if k = 1 then 1 / h d else -1 / h d) 1 (some d) rfl (fun k hk => ?_) _ hp
        have : k = -1 ∨ k = 1 := by simpa [coef2, coef1, addCoef, Pts.toList] using hk
        rcases this with rfl | rfl
        · rw [if_neg (by decide), val_div, val_neg, val_one]
          have := hone (-1 / (h d).val)
          rw [show -1 / (h d).val = ((-1 : Int) : K) * factor (fun d => (h d).val) 1 (some d) by simp [factor]; ring] at this ⊢
          exact this
        · rw [if_pos rfl, val_div, val_one]
          simpa [factor] using hone (1 / (h d).val)
    | quarter =>
      simp only [weights] at hw
      cases hp : pair pts (coef4 1 1 1 1 : Pts Int) with
      | none => rw [hp] at hw; simp at hw
      | some w' =>
        rw [hp] at hw; simp only [Option.map_some, Option.some.injEq, Prod.mk.injEq] at hw
        obtain ⟨rfl, rfl, rfl⟩ := hw
        refine key o pts sr de _ _ (fun _ => 1 / 4) 4 none rfl (fun k hk => ?_) _ hp
        have : k = 1 := by simpa [coef4, coef1, addCoef, Pts.toList] using hk
        subst this
        rw [val_div, val_one, val_four]
        simpa [factor] using hone (1 / 4)
    | halfPer d =>
      simp only [weights] at hw
      cases hp : pair pts (coef2 (-1) 1 : Pts Int) with
      | none => rw [hp] at hw; simp at hw
      | some w' =>
        rw [hp] at hw; simp only [Option.map_some, Option.some.injEq, Prod.mk.injEq] at hw
        obtain ⟨rfl, rfl, rfl⟩ := hw
        refine key o pts sr de _ _ (fun k => if k = 1 then 1 / 2 / h d else -(1 / 2) / h d) 2 (some d) rfl (fun k hk => ?_) _ hp
        have : k = -1 ∨ k = 1 := by simpa [coef2, coef1, addCoef, Pts.toList] using hk
        rcases this with rfl | rfl
        · rw [if_neg (by decide), val_div, val_neg, val_div, val_one, val_two, hf.half]
          have := hone (-(1 / 2) / (h d).val)
          rw [show -(1 / 2) / (h d).val = ((-1 : Int) : K) * factor (fun d => (h d).val) 2 (some d) by simp [factor]; ring] at this ⊢
          exact this
        · rw [if_pos rfl, val_div, val_div, val_one, val_two, hf.half]
          simpa [factor] using hone (1 / 2 / (h d).val)
    | absent => simp [weights] at hw
  | sum pts sr de =>
    cases cf with
    | absent =>
      simp only [weights, Option.some.injEq, Prod.mk.injEq] at hw
      obtain ⟨rfl, rfl, rfl⟩ := hw
      refine ⟨.sumStencil pts (.field src), rfl, fun m c => ?_⟩
      have := err_pts hf pts (fun q => valueAt m src (c + q)) (fun q => (valueAt m src (c + q)).val)
        (fun q => |(valueAt m src (c + q)).val|) 0 fun q _ => Err.self _
      have := this.mono hu (l := pts.toList.length + 1) (by omega)
      unfold wsum wabs
      rw [toList_pmap]
      simpa [factor, Function.comp_def, Expr.value, valueAt] using this
    | _ => simp [weights] at hw
  | average pts sr de =>
    cases cf with
    | absent =>
      simp only [weights, Option.some.injEq, Prod.mk.injEq] at hw
      obtain ⟨rfl, rfl, rfl⟩ := hw
      refine ⟨_, rfl, fun m c => ?_⟩
      have h1 := err_pts hf pts (fun q => valueAt m src (c + q)) (fun q => (valueAt m src (c + q)).val)
        (fun q => |(valueAt m src (c + q)).val|) 0 fun q _ => Err.self _
      have h2 := (h1.mul hu (hone (1 / (len pts : K)))).rounded hf
      have hl : 0 < pts.toList.length := by cases pts <;> simp [Pts.toList]
      have h3 := h2.mono hu (l := pts.toList.length + 1) (by omega)
      unfold wsum wabs
      rw [toList_pmap]
      have e1 : ((Expr.bin (s := .num) (t := .num) (fun a b : Fl rnd => a * b) (.sumStencil pts (.field src))
          (.scalar (t := .num) (1 / (len pts : Fl rnd)))).value m c : Fl rnd).val =
          rnd ((pts.sum fun q => valueAt m src (c + q)).val * rnd (1 / (len pts : K))) := rfl
      rw [e1]
      simpa [factor, Function.comp_def] using h3
    | _ => simp [weights] at hw

/-! ## Sizes -/

/-- The check of the sum of the absolute values of the coefficients. -/
def ampOk (r : Reg) : Bool :=
  match r.type with
  | none => false
  | some t => match weights t r.coef with
    | none => false
    | some (w, den, s) => decide (w.toList.map Prod.fst = r.reads) && decide (den ≠ 0) && match r.coef, s with
      | .per d, some d' => decide (d = d') && decide ((w.toList.map fun q => |q.2|).sum = 2 * (den : Int))
      | .halfPer d, some d' => decide (d = d') && decide ((w.toList.map fun q => |q.2|).sum = (den : Int))
      | .per _, none => false
      | .halfPer _, none => false
      | _, none => decide ((w.toList.map fun q => |q.2|).sum = (den : Int))
      | _, _ => false

theorem all_ampOk : registrations.all ampOk = true := by decide +kernel

theorem wabs_le (w : Pts (IntVec × Int)) (a : IntVec → K) (B : K) (h : ∀ q ∈ w.toList, |a q.1| ≤ B) :
    wabs w a ≤ B * (((w.toList.map fun q => |q.2|).sum : Int) : K) := by
  unfold wabs
  generalize w.toList = l at *
  induction l with
  | nil => simp
  | cons q l ih =>
    simp only [List.map_cons, List.sum_cons]
    rw [Int.cast_add, Int.cast_abs, mul_add]
    exact add_le_add (mul_le_mul_of_nonneg_right (h q (by simp)) (abs_nonneg _)) (ih fun q hq => h q (by simp [hq]))

theorem amp_bound {r : Reg} (hr : r ∈ registrations) (h : Dir → K) :
    ∃ t w den s, r.type = some t ∧ weights t r.coef = some (w, den, s) ∧ w.toList.map Prod.fst = r.reads ∧
      ∀ (a : IntVec → K) (B : K), (∀ p ∈ r.reads, |a p| ≤ B) → wabs w a * |factor h den s| ≤ amplification h r * B := by
  have hok := List.all_eq_true.1 all_ampOk r hr
  unfold ampOk at hok
  cases ht : r.type with
  | none => rw [ht] at hok; simp at hok
  | some t =>
    rw [ht] at hok
    dsimp only at hok
    cases hw : weights t r.coef with
    | none => rw [hw] at hok; simp at hok
    | some wds =>
      obtain ⟨w, den, s⟩ := wds
      rw [hw] at hok
      dsimp only at hok
      simp only [Bool.and_eq_true, decide_eq_true_eq] at hok
      obtain ⟨⟨h1, h2⟩, h3⟩ := hok
      refine ⟨t, w, den, s, rfl, hw, h1, fun a B hB => ?_⟩
      have hle := wabs_le w a B fun q hq => hB _ (by rw [← h1]; exact List.mem_map_of_mem hq)
      have hle := mul_le_mul_of_nonneg_right hle (abs_nonneg (factor h den s))
      have hden : (0 : K) < den := by exact_mod_cast Nat.pos_of_ne_zero h2
      refine hle.trans (le_of_eq ?_)
      unfold amplification
      split at h3
      · rename_i d d' hc
        simp only [Bool.and_eq_true, decide_eq_true_eq] at h3
        obtain ⟨rfl, h3⟩ := h3
        rw [h3, hc]
        simp only [factor, abs_div, abs_one, abs_of_pos hden]
        push_cast
        field_simp
      · rename_i d d' hc
        simp only [Bool.and_eq_true, decide_eq_true_eq] at h3
        obtain ⟨rfl, h3⟩ := h3
        rw [h3, hc]
        simp only [factor, abs_div, abs_one, abs_of_pos hden]
        push_cast
        field_simp
      · simp at h3
      · simp at h3
      · rename_i hc1 hc2
        simp only [decide_eq_true_eq] at h3
        rw [h3]
        have : amplification h r = 1 := by
          unfold amplification
          split
          · rename_i d hc; exact absurd hc (hc1 d)
          · rename_i d hc; exact absurd hc (hc2 d)
          · rfl
        unfold amplification at this
        rw [this]
        simp only [factor, abs_div, abs_one, abs_of_pos hden]
        push_cast
        field_simp
      · simp at h3

/-! ## Two-point operators -/

/-- What a gradient or divergence leaves in the destination. -/
theorem err_twoPoint (hf : Format u rnd) (h : Dir → Fl rnd) {r : Reg} (hr : r ∈ registrations)
    (ho : r.op = .gradient ∨ r.op = .divergence) {d : Dir} (hd : OnlyDirection r.src r.dest d) {n : IntVec}
    (hn : IntVec.Lt 0 n) {src dest : FieldObj} {b : Nat} (ha : Applicable n r d src dest b) (m : Mem (Fl rnd)) :
    ∃ m', r.applyToField h src dest m = .ok m' ∧
      (∀ c, Interior n dest c → Err u 3 (valueAt m' dest c).val
        (((valueAt m src (highSide r.dest d c)).val - (valueAt m src (lowSide r.dest d c)).val) / (h d).val)
        ((|(valueAt m src (highSide r.dest d c)).val| + |(valueAt m src (lowSide r.dest d c)).val|) / |(h d).val|)) ∧
      (∀ c, Interior n dest c → valueAt m' dest c = valueAt m src (lowSide r.dest d c) * (-1 / h d) +
        valueAt m src (highSide r.dest d c) * (1 / h d)) := by
  have hhigh : ∀ c, highSide r.dest d c = c + (lowPt r.dest d + unit d) := by
    intro c; unfold highSide; rw [lowSide_eq]; apply IntVec.ext <;> simp <;> omega
  obtain ⟨hc, ht⟩ := twoPoint_of hr ho hd
  have hreads : r.reads = [lowPt r.dest d, lowPt r.dest d + unit d] := by
    rw [reads_eq ht]; rfl
  have hread : Readable n r src dest b :=
    { target := ha.target, extra := ha.extra, mesh := ha.mesh, mem := ha.mem, apart := ha.apart
      self := by
        intro c hc
        have h1 := ha.low c hc
        have h2 := ha.high c hc
        unfold highSide at h2
        unfold lowSide at h1 h2
        split at h1
        · rename_i hs
          rw [if_pos hs] at h2
          have : c - unit d + unit d = c := by apply IntVec.ext <;> simp [IntVec.sub_x, IntVec.sub_y, IntVec.sub_z]
          rwa [this] at h2
        · exact h1
      reads := by
        intro c hc p hp
        rw [hreads] at hp
        simp only [List.mem_cons, List.not_mem_nil, or_false] at hp
        rcases hp with rfl | rfl
        · have := ha.low c hc; rwa [lowSide_eq] at this
        · have := ha.high c hc; rwa [hhigh] at this }
  have he : (OpType.coefs r.op (.more (.one (lowPt r.dest d)) (lowPt r.dest d + unit d)) r.src r.dest).apply (r.coef.build h)
      (.field src) = some (.stencil (.more (.one (lowPt r.dest d, -1 / h d)) (lowPt r.dest d + unit d, 1 / h d)) (.field src)) := by
    rw [hc]; rfl
  obtain ⟨m', h1, h2, -⟩ := apply_expr h ht hn he hread m
  have h3 : ∀ c, Interior n dest c → valueAt m' dest c = valueAt m src (lowSide r.dest d c) * (-1 / h d) +
        valueAt m src (highSide r.dest d c) * (1 / h d) := by
    intro c hc
    rw [h2 c hc, hhigh, lowSide_eq]
    rfl
  refine ⟨m', h1, fun c hc => ?_, h3⟩
  rw [h3 c hc]
  have a1 := ((Err.self (u := u) (valueAt m src (lowSide r.dest d c)).val).mul hf.nonneg
    ((Err.self (u := u) (-1 / (h d).val)).rounded hf)).rounded hf
  have a2 := ((Err.self (u := u) (valueAt m src (highSide r.dest d c)).val).mul hf.nonneg
    ((Err.self (u := u) (1 / (h d).val)).rounded hf)).rounded hf
  have a3 := (a1.add a2).rounded hf
  have e1 : (valueAt m src (lowSide r.dest d c)).val * (-1 / (h d).val) + (valueAt m src (highSide r.dest d c)).val * (1 / (h d).val) =
      ((valueAt m src (highSide r.dest d c)).val - (valueAt m src (lowSide r.dest d c)).val) / (h d).val := by ring
  have e2 : |(valueAt m src (lowSide r.dest d c)).val| * |-1 / (h d).val| + |(valueAt m src (highSide r.dest d c)).val| * |1 / (h d).val| =
      (|(valueAt m src (highSide r.dest d c)).val| + |(valueAt m src (lowSide r.dest d c)).val|) / |(h d).val| := by
    rw [abs_div, abs_div, abs_neg, abs_one]; ring
  rw [e1, e2] at a3
  exact a3

/-! ## Sums over cells and shapes of operators -/

theorem err_reduce (hf : Format u rnd) (first : IntVec) (rest : List IntVec) (t : IntVec → Fl rnd) (x X : IntVec → K) (k : Nat)
    (h : ∀ c ∈ first :: rest, Err u k (t c).val (x c) (X c)) :
    Err u (k + ((first :: rest).length - 1)) (rest.foldl (fun s c => s + t c) (t first)).val ((first :: rest).map x).sum
      ((first :: rest).map X).sum := by
  have := err_foldl hf rest t x X k 0 (t first) (x first) (X first) (h first (by simp)) fun a ha => h a (by simp [ha])
  simpa using this

/-- A lower and an upper bound of a sum of terms that are not negative. -/
theorem fold_between {u : K} {rnd : K → K} (hf : Format u rnd) (hu : u ≤ 1) (rest : List IntVec) (t : IntVec → Fl rnd) (x : IntVec → K)
    (k l : Nat) (r : Fl rnd) (y : K) (hx : ∀ c ∈ rest, 0 ≤ x c) (hy : 0 ≤ y)
    (h1 : (1 - u) ^ (k + l) * y ≤ r.val ∧ r.val ≤ (1 + u) ^ (k + l) * y)
    (h2 : ∀ c ∈ rest, (1 - u) ^ k * x c ≤ (t c).val ∧ (t c).val ≤ (1 + u) ^ k * x c) :
    (1 - u) ^ (k + l + rest.length) * (y + (rest.map x).sum) ≤ (rest.foldl (fun s c => s + t c) r).val ∧
    (rest.foldl (fun s c => s + t c) r).val ≤ (1 + u) ^ (k + l + rest.length) * (y + (rest.map x).sum) := by
  have h0 := hf.nonneg
  induction rest generalizing r y l with
  | nil => simpa using h1
  | cons a rest ih =>
    have hxa := hx a (by simp)
    have ha := h2 a (by simp)
    have p1 : (1 - u) ^ (k + l) ≤ (1 - u) ^ k := pow_le_pow_of_le_one (by linarith) (by linarith) (by omega)
    have p2 : (1 + u) ^ k ≤ (1 + u) ^ (k + l) := pow_le_pow_right₀ (by linarith) (by omega)
    have p3 : 0 ≤ (1 - u) ^ (k + l) := pow_nonneg (by linarith) _
    have p4 : 0 ≤ (1 + u) ^ (k + l) := pow_nonneg (by linarith) _
    have lo : (1 - u) ^ (k + l) * (y + x a) ≤ r.val + (t a).val := by
      rw [mul_add]
      exact add_le_add h1.1 ((mul_le_mul_of_nonneg_right p1 hxa).trans ha.1)
    have hi : r.val + (t a).val ≤ (1 + u) ^ (k + l) * (y + x a) := by
      rw [mul_add]
      exact add_le_add h1.2 (ha.2.trans (mul_le_mul_of_nonneg_right p2 hxa))
    have hnn : 0 ≤ r.val + (t a).val := (mul_nonneg p3 (add_nonneg hy hxa)).trans lo
    have hc := abs_le.1 (hf.close (r.val + (t a).val))
    rw [abs_of_nonneg hnn] at hc
    have e1 : (r + t a).val = rnd (r.val + (t a).val) := rfl
    have := ih (l + 1) (r + t a) (y + x a) (fun c hc => hx c (by simp [hc])) (add_nonneg hy hxa) (by
      rw [e1, ← add_assoc, pow_succ, pow_succ]
      constructor
      · nlinarith [mul_le_mul_of_nonneg_right lo (show (0 : K) ≤ 1 - u by linarith)]
      · nlinarith [mul_le_mul_of_nonneg_right hi (show (0 : K) ≤ 1 + u by linarith)]) fun c hc => h2 c (by simp [hc])
    rw [show k + (l + 1) + rest.length = k + l + (a :: rest).length by simp; omega] at this
    simpa [add_assoc] using this

theorem err_blockSum {k : Nat} {lo ext : IntVec} {v x X : IntVec → K} (h : ∀ c, InExtent lo ext c → Err u k (v c) (x c) (X c)) :
    Err u k (blockSum lo ext v) (blockSum lo ext x) (blockSum lo ext X) := by
  have hb : ∀ i ∈ Finset.range ext.x.toNat, ∀ j ∈ Finset.range ext.y.toNat, ∀ k ∈ Finset.range ext.z.toNat,
      InExtent lo ext ⟨lo.x + i, lo.y + j, lo.z + k⟩ := by
    intro i hi j hj k hk
    rw [Finset.mem_range] at hi hj hk
    unfold InExtent
    iv_omega
  constructor
  · rw [← blockSum_sub, mul_comm, ← blockSum_mul]
    unfold blockSum
    refine (Finset.abs_sum_le_sum_abs _ _).trans (Finset.sum_le_sum fun i hi => ?_)
    refine (Finset.abs_sum_le_sum_abs _ _).trans (Finset.sum_le_sum fun j hj => ?_)
    refine (Finset.abs_sum_le_sum_abs _ _).trans (Finset.sum_le_sum fun k hk => ?_)
    beta_reduce
    rw [mul_comm]
    exact (h _ (hb i hi j hj k hk)).1
  · unfold blockSum
    refine (Finset.abs_sum_le_sum_abs _ _).trans (Finset.sum_le_sum fun i hi => ?_)
    refine (Finset.abs_sum_le_sum_abs _ _).trans (Finset.sum_le_sum fun j hj => ?_)
    refine (Finset.abs_sum_le_sum_abs _ _).trans (Finset.sum_le_sum fun k hk => ?_)
    exact (h _ (hb i hi j hj k hk)).2

omit [LinearOrder K] [IsStrictOrderedRing K] in
/-- The exact sum of the exact differences, times the spacing. -/
theorem telescope (dest : FieldType) (d : Dir) (lo ext : IntVec) (hext : IntVec.Le 0 ext) (a : IntVec → K) (hd : K) (hh : hd ≠ 0) :
    blockSum lo ext (fun c => (a (highSide dest d c) - a (lowSide dest d c)) / hd) * hd =
      blockSum (lo + along (comp ext d) d) (layer ext d) (fun c => a (lowSide dest d c)) -
       blockSum lo (layer ext d) (fun c => a (lowSide dest d c)) := by
  rw [← blockSum_mul, ← blockSum_telescope d lo ext hext]
  refine blockSum_congr fun c hc => ?_
  rw [div_mul_cancel₀ _ hh]
  congr 2
  unfold highSide
  rw [lowSide_eq, lowSide_eq]
  apply IntVec.ext <;> simp <;> omega

theorem scaled {k : Nat} {v x X h Y : K} (he : Err u k v x (X)) (hX : X * |h| = Y) : |v * h - x * h| ≤ grow u k * Y := by
  rw [← sub_mul, abs_mul, ← hX, ← mul_assoc]
  exact mul_le_mul_of_nonneg_right he.1 (abs_nonneg _)

/-- The checks of the shapes of the operators. -/
def zeroOk (r : Reg) : Bool :=
  match r.op with
  | .gradient | .divergence | .gradientD _ => match r.type, r.coef with
    | some (.coefs _ (.more (.one _) _) _ _), .per _ => true
    | some (.coefs _ (.more (.one _) _) _ _), .halfPer _ => true
    | _, _ => false
  | _ => true

theorem all_zeroOk : registrations.all zeroOk = true := by decide +kernel

/-- The checks of the shapes of the interpolants. -/
def meanOk (r : Reg) : Bool :=
  match r.op with
  | .interpolant | .interpolantD _ => match r.type, r.coef with
    | some (.coefs _ (.more (.one _) _) _ _), .half => true
    | some (.coefs _ (.more (.more (.more (.one _) _) _) _) _ _), .quarter => true
    | some (.sum (.one _) _ _), .absent => true
    | _, _ => false
  | _ => true

theorem all_meanOk : registrations.all meanOk = true := by decide +kernel

/-- The check of the shape of the filters. -/
def boxOk (r : Reg) : Bool :=
  match r.op with
  | .filter => (r.type == some (.average box3D r.src r.dest)) && (r.coef == .absent)
  | _ => true

theorem all_boxOk : registrations.all boxOk = true := by decide +kernel

end
end Round
end SpatialOps
