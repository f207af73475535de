import Verif.OpDb.Spec
import Mathlib.Data.List.Induction

/-!
# Property C30: the operator database
-/

namespace SpatialOps
namespace OpDb

variable {κ : Type} [DecidableEq κ]

/-! ## Helper lemmas -/

/-- The entries of a store after the operators `l` were added. -/
def ids (l : List Nat) : List (Int × Nat) := (l.zipIdx 1).map fun e => ((e.2 : Int), e.1)

/-- The store after the operators `l` were added. -/
def storeOf : List Nat → Option OpStore
  | [] => none
  | l => some ⟨ids l, l.length⟩

theorem ids_append (l : List Nat) (p : Nat) : ids (l ++ [p]) = ids l ++ [((l.length : Int) + 1, p)] := by
  unfold ids
  rw [List.zipIdx_append, List.map_append]
  simp
  omega

theorem ids_keys {l : List Nat} {e : Int × Nat} (h : e ∈ ids l) : e.1 ≤ l.length := by
  unfold ids at h
  obtain ⟨⟨p, i⟩, hp, rfl⟩ := List.mem_map.1 h
  have := List.snd_lt_of_mem_zipIdx hp
  dsimp only at this ⊢
  omega

theorem insertSorted_last (k : Int) (p : Nat) (l : List (Int × Nat)) (h : ∀ e ∈ l, e.1 < k) :
    OpStore.insertSorted k p l = l ++ [(k, p)] := by
  induction l with
  | nil => rfl
  | cons e l ih =>
    obtain ⟨k', p'⟩ := e
    have h1 := h (k', p') (by simp)
    dsimp only at h1
    unfold OpStore.insertSorted
    rw [if_neg (by omega), if_neg (by omega), ih fun e he => h e (by simp [he])]
    rfl

theorem add_eq (l : List Nat) (p : Nat) :
    OpStore.add ⟨ids l, l.length⟩ p = (⟨ids (l ++ [p]), ((l ++ [p]).length : Nat)⟩, (l.length : Int) + 1) := by
  unfold OpStore.add
  rw [insertSorted_last _ _ _ fun e he => by have := ids_keys he; dsimp only; omega, ids_append]
  simp

theorem find_append (k : κ) (a b : List (κ × OpStore)) :
    find k (a ++ b) = (find k a).or (find k b) := by
  induction a with
  | nil => rfl
  | cons e a ih =>
    obtain ⟨k', s⟩ := e
    simp only [List.cons_append, find]
    split
    · rfl
    · exact ih

theorem find_update (k k' : κ) (s : OpStore) (l : List (κ × OpStore)) :
    find k' (update k s l) = if k' = k then (find k l).map fun _ => s else find k' l := by
  induction l with
  | nil => simp [update, find]
  | cons e l ih =>
    obtain ⟨k0, s0⟩ := e
    unfold update
    by_cases h0 : k0 = k
    · subst h0
      rw [if_pos rfl]
      simp only [find]
      by_cases h1 : k0 = k'
      · subst h1; simp
      · rw [if_neg h1, if_neg h1, if_neg fun h => h1 h.symm]
    · rw [if_neg h0]
      simp only [find]
      rw [if_neg h0]
      by_cases h1 : k0 = k'
      · subst h1; rw [if_pos rfl, if_pos rfl, if_neg h0]
      · rw [if_neg h1, if_neg h1, ih]

/-- The pointers held by the database. -/
def held (d : OpDb κ) : List Nat := d.stores.flatMap fun s => s.2.ops.map Prod.snd

theorem register_find (d : OpDb κ) (k : κ) (p : Nat) (l : List Nat) (hl : find k d.stores = storeOf l) :
    (d.register k p).2 = (l.length : Int) + 1 ∧
    (∀ k', find k' (d.register k p).1.stores = if k' = k then storeOf (l ++ [p]) else find k' d.stores) ∧
    (d.register k p).1.deleted = d.deleted := by
  have key : ∀ stores, find k stores = some ⟨ids l, l.length⟩ →
      (∀ k', k' ≠ k → find k' stores = find k' d.stores) →
      (match find k stores with
        | some s => (({ d with stores := update k (s.add p).1 stores } : OpDb κ), (s.add p).2)
        | none => (d, 0)).2 = (l.length : Int) + 1 ∧
      (∀ k', find k' (match find k stores with
        | some s => (({ d with stores := update k (s.add p).1 stores } : OpDb κ), (s.add p).2)
        | none => (d, 0)).1.stores = if k' = k then storeOf (l ++ [p]) else find k' d.stores) ∧
      (match find k stores with
        | some s => (({ d with stores := update k (s.add p).1 stores } : OpDb κ), (s.add p).2)
        | none => (d, 0)).1.deleted = d.deleted := by
    intro stores h1 h2
    rw [h1]
    refine ⟨?_, fun k' => ?_, rfl⟩
    · dsimp only
      rw [add_eq]
    · dsimp only
      rw [find_update, h1, add_eq]
      split
      · cases l <;> rfl
      · rename_i h; exact h2 k' h
  unfold register
  cases l with
  | nil =>
    have hn : find k d.stores = none := hl
    rw [hn]
    refine key _ ?_ ?_
    · rw [if_pos (by rfl), find_append, hn]
      simp [find, OpStore.new, ids]
    · intro k' hk
      rw [if_pos (by rfl), find_append]
      simp only [find]
      rw [if_neg fun h => hk h.symm, Option.or_none]
  | cons a l =>
    have hs : find k d.stores = some ⟨ids (a :: l), (a :: l).length⟩ := hl
    rw [hs]
    exact key _ (by rw [if_neg (by simp)]; exact hs) fun k' _ => by rw [if_neg (by simp)]

omit [DecidableEq κ] in
theorem since_append (h : List (Call κ)) (c : Call κ) :
    since (h ++ [c]) = match c with | .register k p => since h ++ [(k, p)] | .empty => [] := by
  unfold since; rw [List.foldl_append]; rfl

/-- What the database knows after a history. -/
theorem find_run (h : List (Call κ)) (k : κ) : find k (run new h).stores = storeOf (registered k h) := by
  induction h using List.reverseRecOn generalizing k with
  | nil => rfl
  | append_singleton h c ih =>
    have e : run (new : OpDb κ) (h ++ [c]) = (run new h).step c := by unfold run; rw [List.foldl_append]; rfl
    rw [e]
    unfold registered at ih ⊢
    rw [since_append]
    cases c with
    | empty => rfl
    | register k' p =>
      simp only [step]
      rw [(register_find (run new h) k' p _ (ih k')).2.1 k]
      split
      · rename_i hk; subst hk; simp
      · rename_i hk
        have hk' : ¬ k' = k := fun x => hk x.symm
        rw [ih k]; simp [hk']

theorem held_update (k : κ) (s t : OpStore) (p : Nat) (l : List (κ × OpStore)) (hs : find k l = some s)
    (ht : t.ops = s.ops ++ [(t.idCounter, p)]) :
    ((update k t l).flatMap fun s => s.2.ops.map Prod.snd).Perm
      ((l.flatMap fun s => s.2.ops.map Prod.snd) ++ [p]) := by
  induction l with
  | nil => simp [find] at hs
  | cons e l ih =>
    obtain ⟨k', s'⟩ := e
    unfold update
    unfold find at hs
    by_cases h : k' = k
    · rw [if_pos h] at hs ⊢
      obtain rfl : s' = s := by injection hs
      simp only [List.flatMap_cons, ht, List.map_append, List.map_cons, List.map_nil, List.append_assoc]
      exact List.Perm.append_left _ List.perm_append_comm
    · rw [if_neg h] at hs ⊢
      simp only [List.flatMap_cons, List.append_assoc]
      exact List.Perm.append_left _ (ih hs)

theorem held_register (d : OpDb κ) (k : κ) (p : Nat) (l : List Nat) (hl : find k d.stores = storeOf l) :
    (d.register k p).1.held.Perm (d.held ++ [p]) := by
  unfold register
  cases l with
  | nil =>
    have hn : find k d.stores = none := hl
    rw [hn]
    have h1 : find k (d.stores ++ [(k, OpStore.new)]) = some OpStore.new := by
      rw [find_append, hn]; simp [find]
    rw [if_pos (by rfl)]
    dsimp only
    rw [h1]
    refine (held_update k OpStore.new _ p _ h1 ?_).trans ?_
    · have := add_eq [] p
      rfl
    · unfold held
      simp [OpStore.new]
  | cons a l =>
    have hs : find k d.stores = some ⟨ids (a :: l), (a :: l).length⟩ := hl
    rw [hs]
    rw [if_neg (by simp)]
    dsimp only
    rw [hs]
    refine held_update k _ _ p _ hs ?_
    rw [add_eq]
    dsimp only
    rw [ids_append]
    simp

omit [DecidableEq κ] in
theorem everRegistered_append (h : List (Call κ)) (c : Call κ) :
    everRegistered (h ++ [c]) = everRegistered h ++ match c with | .register _ p => [p] | .empty => [] := by
  induction h with
  | nil => cases c <;> rfl
  | cons d h ih => cases d <;> cases c <;> simp [everRegistered, ih]

theorem held_run (h : List (Call κ)) :
    ((run (new : OpDb κ) h).deleted ++ (run new h).held).Perm (everRegistered h) := by
  induction h using List.reverseRecOn with
  | nil => exact List.Perm.refl _
  | append_singleton h c ih =>
    have e : run (new : OpDb κ) (h ++ [c]) = (run new h).step c := by unfold run; rw [List.foldl_append]; rfl
    rw [e, everRegistered_append]
    cases c with
    | empty =>
      simp only [step, empty, held, List.flatMap_nil, List.append_nil]
      exact ih
    | register k p =>
      simp only [step]
      rw [(register_find _ k p _ (find_run h k)).2.2]
      refine ((held_register _ k p _ (find_run h k)).append_left _).trans ?_
      rw [← List.append_assoc]
      exact ih.append_right _

theorem find_mem {k : κ} {l : List (κ × OpStore)} {s : OpStore} (h : find k l = some s) : (k, s) ∈ l := by
  induction l with
  | nil => simp [find] at h
  | cons e l ih =>
    obtain ⟨k', s'⟩ := e
    unfold find at h
    split at h
    · rename_i hk; subst hk; injection h with h; subst h; simp
    · exact List.mem_cons_of_mem _ (ih h)

theorem ids_find (l : List Nat) (id : Int) :
    (ids l).find? (fun e => e.1 = id) = if 1 ≤ id then (l[(id - 1).toNat]?).map fun p => (id, p) else none := by
  induction l using List.reverseRecOn with
  | nil => simp [ids]
  | append_singleton l p ih =>
    rw [ids_append, List.find?_append, ih]
    by_cases h1 : 1 ≤ id
    · rw [if_pos h1, if_pos h1]
      by_cases h2 : (id - 1).toNat < l.length
      · rw [List.getElem?_append_left h2, List.getElem?_eq_getElem h2]
        rfl
      · rw [List.getElem?_eq_none (by omega)]
        by_cases h3 : id = l.length + 1
        · subst h3
          simp
        · rw [List.getElem?_eq_none (by simp; omega)]
          simp
          omega
    · rw [if_neg h1, if_neg h1]
      simp
      omega

/-! ## C30 -/

/-- C30. After any history of registrations (of any types) and emptyings, registering an
operator returns one more than the number of operators of its type registered since the
database was last emptied: an id no other of them has. -/
theorem _root_.SpatialOps.C30_register_returns_fresh_id (h : List (Call κ)) (k : κ) (p : Nat) :
    ((run new h).register k p).2 = (registered k h).length + 1 :=
  (register_find _ k p _ (find_run h k)).1

/-- C30. After any history, retrieving with an id (other than -1) returns the operator
that was given this id when it was registered, and throws if there is none. -/
theorem _root_.SpatialOps.C30_retrieve_by_id (h : List (Call κ)) (k : κ) (id : Int) (hid : id ≠ -1) :
    (run new h).retrieve k id =
      if 1 ≤ id then
        match (registered k h)[(id - 1).toNat]? with
        | some p => .ok p
        | none => .throws
      else .throws := by
  unfold retrieve
  rw [find_run]
  cases hr : registered k h with
  | nil => simp [storeOf]
  | cons a l =>
    unfold storeOf
    dsimp only
    unfold OpStore.get
    rw [if_neg hid]
    dsimp only
    rw [ids_find]
    by_cases h1 : 1 ≤ id
    · rw [if_pos h1, if_pos h1]
      cases (a :: l)[(id - 1).toNat]? <;> rfl
    · rw [if_neg h1, if_neg h1]

/-- C30. An operator registered under an id is what this id retrieves, whatever is
registered afterwards for this or any other type, until the database is emptied. -/
theorem _root_.SpatialOps.C30_id_keeps_its_operator (before after : List (Call κ)) (k : κ) (p : Nat)
    (hne : ∀ c ∈ after, c ≠ .empty) :
    (run new (before ++ [.register k p] ++ after)).retrieve k ((run new before).register k p).2 = .ok p := by
  have h1 : ∀ after : List (Call κ), (∀ c ∈ after, c ≠ .empty) →
      ∃ t, since (before ++ [.register k p] ++ after) = since before ++ [(k, p)] ++ t := by
    intro after
    induction after using List.reverseRecOn with
    | nil => intro _; exact ⟨[], by rw [List.append_nil, since_append]; simp⟩
    | append_singleton l c ih =>
      intro hc
      obtain ⟨t, ht⟩ := ih fun c hc' => hc c (by simp [hc'])
      rw [← List.append_assoc, since_append, ht]
      cases c with
      | empty => exact absurd rfl (hc .empty (by simp))
      | register k' p' => exact ⟨t ++ [(k', p')], by simp⟩
  obtain ⟨t, ht⟩ := h1 after hne
  rw [C30_register_returns_fresh_id, C30_retrieve_by_id _ _ _ (by omega), if_pos (by omega)]
  have : (registered k (before ++ [.register k p] ++ after))[((registered k before).length + 1 - 1 : Int).toNat]? =
      some p := by
    unfold registered
    rw [ht]
    simp
  rw [this]

/-- C30. Without an id retrieval returns the operator when exactly one of its type was
registered since the database was last emptied, and throws in every other case. -/
theorem _root_.SpatialOps.C30_retrieve_without_id (h : List (Call κ)) (k : κ) :
    (run new h).retrieve k (-1) =
      match registered k h with
      | [p] => .ok p
      | _ => .throws := by
  unfold retrieve
  rw [find_run]
  match hr : registered k h with
  | [] => rfl
  | [p] => rfl
  | a :: b :: l =>
    unfold storeOf
    dsimp only
    unfold OpStore.get
    rw [if_pos rfl, if_pos (by simp [ids])]

/-- C30. After emptying the database nothing can be retrieved, with or without an id. -/
theorem _root_.SpatialOps.C30_empty_forgets (h : List (Call κ)) (k : κ) (id : Int) :
    (run new (h ++ [.empty])).retrieve k id = .throws := by
  unfold retrieve
  rw [find_run]
  unfold registered
  rw [since_append]
  rfl

/-- C30. Every registered operator is owned by the database: it is deleted once, when the
database is emptied, for each time it was registered, and no operator that can be
retrieved has been deleted, provided each is registered only once. -/
theorem _root_.SpatialOps.C30_owns_operators (h : List (Call κ)) (hn : (everRegistered h).Nodup) :
    (run (new : OpDb κ) h).deleted.Nodup ∧
    (∀ k id p, (run (new : OpDb κ) h).retrieve k id = .ok p → p ∈ everRegistered h ∧
      p ∉ (run (new : OpDb κ) h).deleted) ∧
    (run (new : OpDb κ) (h ++ [.empty])).deleted.Perm (everRegistered h) := by
  have hp := held_run h
  have hnd := hp.nodup_iff.2 hn
  refine ⟨(List.nodup_append.1 hnd).1, ?_, ?_⟩
  · intro k id p hr
    have hm : p ∈ (run (new : OpDb κ) h).held := by
      unfold retrieve at hr
      split at hr
      · cases hr
      · rename_i s hs
        refine List.mem_flatMap.2 ⟨_, find_mem hs, ?_⟩
        unfold OpStore.get at hr
        split at hr
        · split at hr
          · cases hr
          · split at hr
            · cases hr
            · rename_i hops; injection hr with hr; subst hr; rw [hops]; simp
        · split at hr
          · cases hr
          · rename_i e he
            injection hr with hr
            subst hr
            exact List.mem_map.2 ⟨e, List.mem_of_find?_eq_some he, rfl⟩
    exact ⟨hp.mem_iff.1 (List.mem_append_right _ hm), fun hd => (List.nodup_append.1 hnd).2.2 p hd p hm rfl⟩
  · have := held_run (h ++ [Call.empty])
    have e : run (new : OpDb κ) (h ++ [.empty]) = (run new h).step .empty := by
      unfold run; rw [List.foldl_append]; rfl
    rw [e] at this ⊢
    rw [everRegistered_append] at this
    simpa [step, OpDb.empty, held] using this

/-- Non-vacuity: two types, several operators, an emptying in the middle. -/
example : ∃ h : List (Call Bool), (everRegistered h).Nodup ∧ registered true h = [12, 14] ∧
    registered false h = [13] ∧ (run new h).retrieve true 2 = .ok 14 ∧ (run new h).retrieve true (-1) = .throws ∧
    (run new h).retrieve false (-1) = .ok 13 ∧ (run new h).deleted = [10, 11] :=
  ⟨[.register true 10, .register true 11, .empty, .register true 12, .register false 13, .register true 14],
    by decide, by decide, by decide, by decide, by decide, by decide, by decide⟩

/-- C30, limit. Ids are not unique across an emptying: the id of an operator that no
longer exists is given to a new one. -/
theorem _root_.SpatialOps.C30_ids_start_again_after_empty (h : List (Call κ)) (k : κ) (p : Nat) :
    ((run new (h ++ [.empty])).register k p).2 = 1 := by
  rw [C30_register_returns_fresh_id]
  unfold registered
  rw [since_append]
  rfl

end OpDb
end SpatialOps
