import Verif.Fork.Inv

/-!
# Every schedule comes to an end, and not before the program does
-/

namespace SpatialOps.Fork
open Threads Threads.Pool
variable {V L : Type}

/-- The client has been woken inside its `wait`. -/
def flag (s : Sys V L) : Nat :=
  match s.pc with
  | .inWait b => match s.pool.clients[b]? with
    | some (.woken _) => 1
    | _ => 0
  | .call _ _ => 0

theorem flag_le (s : Sys V L) : flag s ≤ 1 := by
  unfold flag
  split
  · split <;> omega
  · omega

/-- Calls the client has still to make or to return from. -/
def callsLeft (prog : Prog V L) : Pc → Nat
  | .call b k => ((prog.drop b).map fun js => js.length + 2).sum - k
  | .inWait b => ((prog.drop (b + 1)).map fun js => js.length + 2).sum + 1

/-- All tasks of the program. -/
def allTasks (prog : Prog V L) : List Task :=
  (List.range prog.length).flatMap fun b => (List.range (size prog b)).map fun k => (b, k)

theorem mem_allTasks {prog : Prog V L} {t : Task} (h : (job prog t).isSome) : t ∈ allTasks prog := by
  obtain ⟨b, k⟩ := t
  have hk := job_iff.1 h
  unfold allTasks
  rw [List.mem_flatMap]
  refine ⟨b, ?_, List.mem_map.2 ⟨k, List.mem_range.2 hk, rfl⟩⟩
  rw [List.mem_range]
  by_contra hge
  unfold size at hk
  rw [List.getElem?_eq_none (by omega)] at hk
  simp at hk

/-- Bound on what is still to be done. -/
def todo (prog : Prog V L) (lens cnt : Task → Nat) (s : Sys V L) : Nat :=
  2 * fuel s.pool + flag s + 16 * callsLeft prog s.pc + ((allTasks prog).map fun t => lens t - cnt t).sum

theorem sum_map_lt {α : Type} {f g : α → Nat} {l : List α} (h : ∀ x ∈ l, g x ≤ f x) {x : α} (hx : x ∈ l)
    (hlt : g x < f x) : (l.map g).sum < (l.map f).sum := by
  induction l with
  | nil => cases hx
  | cons y l ih =>
    have hle : ∀ l' : List α, (∀ z ∈ l', g z ≤ f z) → (l'.map g).sum ≤ (l'.map f).sum := by
      intro l' hl'
      induction l' with
      | nil => simp
      | cons z l' ih' =>
        simp only [List.map_cons, List.sum_cons]
        have := ih' fun w hw => hl' w (by simp [hw])
        have := hl' z (by simp)
        omega
    simp only [List.map_cons, List.sum_cons]
    rcases List.mem_cons.1 hx with rfl | hx
    · have := hle l fun z hz => h z (by simp [hz])
      omega
    · have := ih (fun z hz => h z (by simp [hz])) hx
      have := h y (by simp)
      omega

section
variable {push : Push Task} {prog : Prog V L} {acc wr : Task → Nat → Prop} {n made : Nat}
  {m0 M M' : Nat → V} {cnt cnt' : Task → Nat} {s s' : Sys V L}

theorem calls_at {b : Nat} {js : List (Job V L)} (h : prog[b]? = some js) :
    ((prog.drop b).map fun js => js.length + 2).sum =
      js.length + 2 + ((prog.drop (b + 1)).map fun js => js.length + 2).sum := by
  have hb : b < prog.length := by
    by_contra hge
    rw [List.getElem?_eq_none (by omega)] at h
    cases h
  have e : prog[b] = js := by
    have := List.getElem?_eq_getElem hb
    rw [h] at this
    exact (Option.some.inj this).symm
  rw [List.drop_eq_getElem_cons hb, List.map_cons, List.sum_cons, e]

theorem began_pool (i : Nat) (p : Pool Task) :
    (s.began prog i p).pool = p ∧ (s.began prog i p).pc = s.pc := by
  unfold Sys.began
  split <;> exact ⟨rfl, rfl⟩

/-- Each proper move brings the end nearer; a spurious wake-up costs at most four. -/
theorem todo_step (hp : Keeps push) {lens : Task → Nat}
    (hl : ∀ t j M k l m, job prog t = some j → Seq (prog.take t.1).flatten m0 M → Steps j k j.init M l m → k ≤ lens t)
    (h : Inv push prog acc wr (create n made) m0 cnt M s)
    (h' : Inv push prog acc wr (create n made) m0 cnt' M' s') {mv : Move}
    (hs : s.step push prog mv = some s')
    (hc : (∃ i t, mv = .work i ∧ Runs s'.pool i t ∧ t.1 = batch s'.pc ∧ (job prog t).isSome ∧
          s'.pool = s.pool ∧ s'.pc = s.pc ∧ cnt' = fun u => if u = t then cnt t + 1 else cnt u) ∨
        ((∀ i, mv ≠ .work i) ∧ cnt' = cnt)) :
    (proper mv = true → todo prog lens cnt' s' + 1 ≤ todo prog lens cnt s) ∧
    (proper mv = false → todo prog lens cnt' s' ≤ todo prog lens cnt s + 4) := by
  rcases hc with ⟨i, t, rfl, hrun, hb, hjs, hpool, hpc, rfl⟩ | ⟨hnw, rfl⟩
  · refine ⟨fun _ => ?_, fun h => by cases h⟩
    obtain ⟨j, hj⟩ := Option.isSome_iff_exists.1 hjs
    obtain ⟨b, k⟩ := t
    change b = batch s'.pc at hb
    subst hb
    obtain ⟨l, m1, _, h2, _⟩ := h'.runs i k j hrun hj
    have hle := hl _ _ _ _ _ _ hj h'.seq h2
    rw [if_pos rfl] at hle
    have hfl : flag s' = flag s := by unfold flag; rw [hpool, hpc]
    have hsum : ((allTasks prog).map fun u => lens u -
        (if u = (batch s'.pc, k) then cnt (batch s'.pc, k) + 1 else cnt u)).sum <
        ((allTasks prog).map fun u => lens u - cnt u).sum := by
      refine sum_map_lt (x := (batch s'.pc, k)) ?_ (mem_allTasks hjs) ?_
      · intro u _
        split
        · rename_i e; rw [e]; omega
        · omega
      · rw [if_pos rfl]
        omega
    unfold todo
    rw [hpool, hfl, ← hpc]
    dsimp only
    omega
  · have hf1 := flag_le s'
    have hf0 := flag_le s
    cases mv with
    | schedule who =>
      refine ⟨fun _ => ?_, fun h => by cases h⟩
      simp only [Sys.step] at hs
      split at hs
      · rename_i b k hpc
        split at hs
        · rename_i js hjs
          split at hs
          · rename_i hk
            obtain ⟨p', hp', rfl⟩ := Option.map_eq_some_iff.1 hs
            have h1 := schedule_fuel hp hp'
            have h2 := calls_at hjs
            unfold todo
            rw [hpc]
            simp only [callsLeft]
            omega
          · cases hs
        · cases hs
      · cases hs
    | wait =>
      refine ⟨fun _ => ?_, fun h => by cases h⟩
      have hkl := h.kle
      simp only [Sys.step] at hs
      split at hs
      · rename_i b k hpc
        split at hs
        · rename_i js hjs
          split at hs
          · cases hs
          · rename_i hk
            obtain ⟨p', hp', rfl⟩ := Option.map_eq_some_iff.1 hs
            have h2 := calls_at hjs
            have h3 : fuel p' = fuel s.pool := by
              injection hp' with hp'; subst hp'; rfl
            have hgiven : k ≤ js.length := by
              rw [hpc] at hkl
              change k ≤ size prog b at hkl
              unfold size at hkl
              rw [hjs] at hkl
              exact hkl
            unfold todo
            rw [hpc]
            simp only [callsLeft]
            omega
        · cases hs
      · cases hs
    | ret =>
      refine ⟨fun _ => ?_, fun h => by cases h⟩
      simp only [Sys.step] at hs
      split at hs
      · rename_i b hpc
        split at hs
        · injection hs with hs
          subst hs
          unfold todo
          rw [hpc]
          simp only [callsLeft]
          omega
        · cases hs
      · cases hs
    | clientResume =>
      refine ⟨fun _ => ?_, fun h => by cases h⟩
      simp only [Sys.step] at hs
      split at hs
      · rename_i b hpc
        obtain ⟨p', hp', rfl⟩ := Option.map_eq_some_iff.1 hs
        obtain ⟨_, _, _, e4, ⟨k, e5⟩, e6⟩ := clientResume_effect hp'
        have g1 : flag s = 1 := by
          unfold flag
          rw [hpc]
          simp only [e5]
        have g2 : flag { s with pool := p' } = 0 := by
          unfold flag
          rw [hpc]
          dsimp only
          split
          · rename_i e; exact absurd e (e6 _)
          · rfl
        unfold todo
        rw [g1, g2]
        dsimp only
        omega
      · cases hs
    | clientSpurious =>
      refine ⟨fun h => (by cases h), fun _ => ?_⟩
      simp only [Sys.step] at hs
      split at hs
      · obtain ⟨p', hp', rfl⟩ := Option.map_eq_some_iff.1 hs
        have e4 := (clientSpurious_effect hp').2.2.2
        unfold todo
        dsimp only
        omega
      · cases hs
    | fetch i =>
      refine ⟨fun _ => ?_, fun h => by cases h⟩
      simp only [Sys.step] at hs
      obtain ⟨p', hp', rfl⟩ := Option.map_eq_some_iff.1 hs
      have e := fuel_step (a := .fetch i) trivial hp'
      unfold todo
      rw [(began_pool i p').1, (began_pool i p').2]
      omega
    | resume i =>
      refine ⟨fun _ => ?_, fun h => by cases h⟩
      simp only [Sys.step] at hs
      obtain ⟨p', hp', rfl⟩ := Option.map_eq_some_iff.1 hs
      have e := fuel_step (a := .resume i) trivial hp'
      unfold todo
      rw [(began_pool i p').1, (began_pool i p').2]
      omega
    | spurious i =>
      refine ⟨fun h => (by cases h), fun _ => ?_⟩
      simp only [Sys.step] at hs
      obtain ⟨p', hp', rfl⟩ := Option.map_eq_some_iff.1 hs
      obtain ⟨_, _, e3, e4⟩ := spurious_effect hp'
      have e5 : flag { s with pool := p' } = flag s := by
        unfold flag
        dsimp only
        rw [e3]
      unfold todo
      rw [e5]
      dsimp only
      omega
    | finish i =>
      refine ⟨fun _ => ?_, fun h => by cases h⟩
      simp only [Sys.step] at hs
      split at hs
      · split at hs
        · split at hs
          · obtain ⟨p', hp', rfl⟩ := Option.map_eq_some_iff.1 hs
            have e := fuel_step (a := .finish i) trivial hp'
            unfold todo
            dsimp only
            omega
          · cases hs
        · cases hs
      · cases hs
    | exit i =>
      refine ⟨fun _ => ?_, fun h => by cases h⟩
      simp only [Sys.step] at hs
      obtain ⟨p', hp', rfl⟩ := Option.map_eq_some_iff.1 hs
      have e := fuel_step (a := .exit i) trivial hp'
      unfold todo
      dsimp only
      omega
    | work i => exact absurd rfl (hnw i)

/-- The invariant along a run. -/
theorem inv_run (hp : Keeps push)
    (hW : ∀ t j, job prog t = some j → Within j (acc t) (wr t))
    (hD : ∀ b k k' c, (job prog (b, k)).isSome → (job prog (b, k')).isSome → wr (b, k) c → acc (b, k') c → k = k')
    (h : Inv push prog acc wr (create n made) m0 cnt M s) {ms : List Move}
    (hs : s.run push prog ms = some s') : ∃ cnt' M', Inv push prog acc wr (create n made) m0 cnt' M' s' := by
  induction ms generalizing s cnt M with
  | nil =>
    simp only [Sys.run, Option.some.injEq] at hs
    subst hs
    exact ⟨_, _, h⟩
  | cons mv ms ih =>
    simp only [Sys.run] at hs
    obtain ⟨s1, h1, h2⟩ := Option.bind_eq_some_iff.1 hs
    obtain ⟨cnt1, M1, i1, _⟩ := inv_step hp hW hD h h1
    exact ih i1 h2

theorem todo_run (hp : Keeps push)
    (hW : ∀ t j, job prog t = some j → Within j (acc t) (wr t))
    (hD : ∀ b k k' c, (job prog (b, k)).isSome → (job prog (b, k')).isSome → wr (b, k) c → acc (b, k') c → k = k')
    {lens : Task → Nat}
    (hl : ∀ t j M k l m, job prog t = some j → Seq (prog.take t.1).flatten m0 M → Steps j k j.init M l m → k ≤ lens t)
    (h : Inv push prog acc wr (create n made) m0 cnt M s) {ms : List Move}
    (hs : s.run push prog ms = some s') :
    ms.countP proper ≤ todo prog lens cnt s + 4 * ms.countP (fun mv => !proper mv) := by
  induction ms generalizing s cnt M with
  | nil => simp
  | cons mv ms ih =>
    simp only [Sys.run] at hs
    obtain ⟨s1, h1, h2⟩ := Option.bind_eq_some_iff.1 hs
    obtain ⟨cnt1, M1, i1, hc⟩ := inv_step hp hW hD h h1
    obtain ⟨t1, t2⟩ := todo_step hp hl h i1 h1 hc
    have := ih i1 h2
    rw [List.countP_cons, List.countP_cons]
    cases hpr : proper mv
    · have := t2 hpr
      simp
      omega
    · have := t1 hpr
      simp
      omega

/-- How long each task can run. -/
theorem lens_exist (hW : ∀ t j, job prog t = some j → Within j (acc t) (wr t))
    (hD : ∀ b k k' c, (job prog (b, k)).isSome → (job prog (b, k')).isSome → wr (b, k) c → acc (b, k') c → k = k')
    {mEnd : Nat → V} (hq : Seq prog.flatten m0 mEnd) :
    ∃ lens : Task → Nat, ∀ t j M k l m, job prog t = some j → Seq (prog.take t.1).flatten m0 M →
      Steps j k j.init M l m → k ≤ lens t := by
  have key : ∀ t : Task, ∃ N : Nat, ∀ j M k l m, job prog t = some j → Seq (prog.take t.1).flatten m0 M →
      Steps j k j.init M l m → k ≤ N := by
    rintro ⟨b, k⟩
    by_cases hj : ∃ j, job prog (b, k) = some j
    · obtain ⟨j, hj⟩ := hj
      have hj0 := hj
      unfold job at hj
      obtain ⟨js, h1, h2⟩ := Option.bind_eq_some_iff.1 hj
      have e : prog.flatten = (prog.take b).flatten ++ (js ++ (prog.drop (b + 1)).flatten) := by
        rw [← List.append_assoc, ← batch_take prog h1, ← List.flatten_append, List.take_append_drop]
      rw [e] at hq
      obtain ⟨M, q1, q2⟩ := seq_split hq
      obtain ⟨M2, q3, _⟩ := seq_split q2
      have hjob : ∀ k, job prog (b, k) = js[k]? := by
        intro k
        unfold job
        rw [show prog[((b, k) : Task).1]? = some js from h1]
        rfl
      obtain ⟨N, m1, hsolo⟩ := each_of_seq (acc := fun k => acc (b, k)) (wr := fun k => wr (b, k))
        (fun k j hj => hW (b, k) j (by rw [hjob]; exact hj))
        (fun k k' c h1 h2 => hD b k k' c (by rw [hjob, List.getElem?_eq_getElem h1]; rfl)
          (by rw [hjob, List.getElem?_eq_getElem h2]; rfl)) q3 h2
      refine ⟨N, fun j' M' k' l m hj' hM' hst => ?_⟩
      have ej : j' = j := Option.some.inj (hj'.symm.trans hj0)
      subst ej
      have eM : M' = M := seq_det hM' q1
      subst eM
      exact steps_le_solo hst hsolo
    · exact ⟨0, fun j _ _ _ _ hj' => absurd ⟨j, hj'⟩ hj⟩
  exact ⟨fun t => Classical.choose (key t), fun t => Classical.choose_spec (key t)⟩

/-- Until the program is over somebody can move. -/
theorem not_stuck (hp : Keeps push) (hn : 1 ≤ n) (hm : 1 ≤ made)
    (h : Inv push prog acc wr (create n made) m0 cnt M s) (he : s.pc ≠ .call prog.length 0) :
    ∃ mv s', proper mv = true ∧ s.step push prog mv = some s' := by
  have F := facts hp h.reach h.nodup
  cases hpc : s.pc with
  | call b k =>
    have hble := h.ble
    have hkle := h.kle
    rw [hpc] at hble hkle he
    change b ≤ prog.length at hble
    change k ≤ size prog b at hkle
    by_cases hb : b = prog.length
    · exfalso
      subst hb
      unfold size at hkle
      rw [List.getElem?_eq_none (Nat.le_refl _)] at hkle
      simp at hkle
      subst hkle
      exact he rfl
    · have hjs : prog[b]? = some prog[b] := List.getElem?_eq_getElem (by omega)
      by_cases hk : k < prog[b].length
      · by_cases hw : ∃ i : Nat, s.pool.workers[i]? = some WState.waiting
        · obtain ⟨i, hi⟩ := hw
          have : (s.step push prog (.schedule (some i))).isSome := by
            simp only [Sys.step, hpc, hjs, if_pos hk, Pool.step, hi]
            rfl
          obtain ⟨s', hs'⟩ := Option.isSome_iff_exists.1 this
          exact ⟨_, s', rfl, hs'⟩
        · have : (s.step push prog (.schedule none)).isSome := by
            simp only [Sys.step, hpc, hjs, if_pos hk, Pool.step]
            rw [if_pos]
            · rfl
            · rw [List.all_eq_true]
              intro w hw'
              obtain ⟨i, hi⟩ := List.mem_iff_getElem?.1 hw'
              cases w with
              | waiting => exact absurd ⟨i, hi⟩ hw
              | _ => rfl
          obtain ⟨s', hs'⟩ := Option.isSome_iff_exists.1 this
          exact ⟨_, s', rfl, hs'⟩
      · have : (s.step push prog .wait).isSome := by
          simp only [Sys.step, hpc, hjs, if_neg hk, Pool.step]
          rfl
        obtain ⟨s', hs'⟩ := Option.isSome_iff_exists.1 this
        exact ⟨_, s', rfl, hs'⟩
  | inWait b =>
    have hkind := h.kind
    rw [hpc] at hkind
    have hlen : s.pool.clients.length = b + 1 := by
      have := congrArg List.length hkind
      simpa using this
    have hc : s.pool.clients[b]? = some s.pool.clients[b] := List.getElem?_eq_getElem (by omega)
    have hk0 := replicate_kind hkind _ hc
    cases hcc : s.pool.clients[b] with
    | returned k =>
      rw [hcc] at hc
      have : (s.step push prog .ret).isSome := by
        simp only [Sys.step, hpc, hc]
        rfl
      obtain ⟨s', hs'⟩ := Option.isSome_iff_exists.1 this
      exact ⟨_, s', rfl, hs'⟩
    | woken k =>
      rw [hcc] at hc
      have : (s.step push prog .clientResume).isSome := by
        simp only [Sys.step, hpc, Pool.step, hc]
        rfl
      obtain ⟨s', hs'⟩ := Option.isSome_iff_exists.1 this
      exact ⟨_, s', rfl, hs'⟩
    | waiting k =>
      rw [hcc] at hc hk0
      change k = .tasks 0 at hk0
      subst hk0
      by_contra hno
      have none_of : ∀ mv, proper mv = true → s.step push prog mv = none := by
        intro mv hmv
        cases e : s.step push prog mv with
        | none => rfl
        | some s' => exact absurd ⟨mv, s', hmv, e⟩ hno
      have hQ : Quiet push s.pool := by
        intro a ha
        cases a with
        | fetch i => exact Option.map_eq_none_iff.1 (none_of (.fetch i) rfl)
        | resume i => exact Option.map_eq_none_iff.1 (none_of (.resume i) rfl)
        | exit i => exact Option.map_eq_none_iff.1 (none_of (.exit i) rfl)
        | finish i =>
          cases e : s.pool.step push (.finish i) with
          | none => rfl
          | some p' =>
            exfalso
            have hrun : ∃ t, Runs s.pool i t := by
              simp only [Pool.step] at e
              split at e
              · rename_i t ht; exact ⟨t, ht⟩
              · cases e
            obtain ⟨t, hrun⟩ := hrun
            obtain ⟨hb, hj⟩ := h.present ((F.sched t).2 (Or.inl ((F.start t).2 (Or.inr ⟨i, hrun⟩)))) (F.over t i hrun)
            obtain ⟨j, hj⟩ := Option.isSome_iff_exists.1 hj
            obtain ⟨b', k'⟩ := t
            change b' = batch s.pc at hb
            subst hb
            obtain ⟨l, m1, hl, _, _⟩ := h.runs i k' j hrun hj
            have hrun' := hrun
            unfold Runs at hrun'
            have g1 := none_of (.finish i) rfl
            have g2 := none_of (.work i) rfl
            simp only [Sys.step, hrun', hj, hl] at g1 g2
            unfold Job.next at g2
            cases hcode : j.code l with
            | ret =>
              rw [hcode] at g1
              simp only [e] at g1
              cases g1
            | read c kk => rw [hcode] at g2; cases g2
            | write c v l' => rw [hcode] at g2; cases g2
        | _ => exact absurd ha id
      have := (C36_waiters_released hn hm (h.reach.mono calm_noShrink) hQ 0).1
      exact this (List.mem_of_getElem? hc)

end

end SpatialOps.Fork
