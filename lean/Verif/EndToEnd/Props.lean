import Verif.EndToEnd.Model

/-!
# End to end: resources of accepted applications are never accessed by two tasks at once
-/

namespace Verif.EndToEnd

open Verif.Analysis

variable {tg : Target} {bits : Nat} {raw : Raw} {p : Program}

/-- no `#[local]` resource in use has the name of a shared resource (see `C40_ceiling_violated` for what happens otherwise) -/
def NoCollision (raw : Raw) : Prop := ∀ t q r res, UsesLocal raw t q r → ¬ SharedField raw r res

theorem task_prio_le (h : expand tg bits raw = .ok p) {t : Ident} {k : Kind} {q : Nat} {args : List TaskArg} (ht : TaskIs raw t k q args) : q ≤ 2 ^ bits := by
  obtain ⟨app, base, an, he⟩ := expand_ok h
  obtain ⟨sh, lo, -, hc⟩ := he.says.task t k q args ht
  have hf := he.fits
  simp only [fits, List.all_eq_true, decide_eq_true_eq, List.mem_append, List.mem_map] at hf
  rcases hc with ⟨i, -, -, rfl, -⟩ | ⟨hh, hm, rfl, -⟩ | ⟨hh, hm, rfl, -⟩
  · exact Nat.zero_le _
  · exact hf _ (.inr ⟨_, hm, rfl⟩)
  · rcases Nat.eq_zero_or_pos hh.priority with h0 | h0
    · rw [h0]; exact Nat.zero_le _
    · obtain ⟨v, hv⟩ := (he.disp.keys hh.priority).mpr ⟨h0, _, hm, rfl⟩
      exact hf _ (.inl ⟨_, hv, rfl⟩)

theorem nodup_fst {α β : Type} {l : List (α × β)} (h : (l.map Prod.fst).Nodup) {a : α} {b c : β} (hb : (a, b) ∈ l) (hc : (a, c) ∈ l) : b = c := by
  induction l with
  | nil => cases hb
  | cons x l ih =>
    simp only [List.map_cons, List.nodup_cons, List.mem_map, not_exists, not_and] at h
    rcases List.mem_cons.mp hb with hb | hb <;> rcases List.mem_cons.mp hc with hc | hc
    · rw [← hc] at hb; exact (Prod.mk.inj hb).2
    · rw [← hb] at h; exact absurd rfl (h.1 (a, c) (by assumption))
    · rw [← hc] at h; exact absurd rfl (h.1 (a, b) (by assumption))
    · exact ih h.2 hb hc

theorem vecPrio_hw (h : expand tg bits raw = .ok p) {v t : Ident} {q : Nat} (hm : (v, q, t) ∈ p.hwHandlers) : vecPrio p v = q := by
  obtain ⟨-, hnd, -⟩ := C44_dispatchers_not_hardware h
  unfold vecPrio
  cases hf : p.hwHandlers.find? (fun x => x.1 = v) with
  | none => exact absurd (List.find?_eq_none.mp hf _ hm) (by simp)
  | some x =>
    obtain ⟨w, q', t'⟩ := x
    have h1 := List.mem_of_find?_eq_some hf
    have h2 := List.find?_some hf
    simp only [decide_eq_true_eq] at h2
    subst h2
    exact congrArg Prod.fst (nodup_fst hnd h1 hm)

theorem vecPrio_disp (h : expand tg bits raw = .ok p) {v : Ident} {q : Nat} {ts : List Ident} (hm : (some v, q, ts) ∈ p.dispatchers) : vecPrio p v = q := by
  obtain ⟨-, -, hnh⟩ := C44_dispatchers_not_hardware h
  obtain ⟨-, -, h3, -, -⟩ := C44_one_dispatcher_per_priority h
  unfold vecPrio
  have hf : p.hwHandlers.find? (fun x => x.1 = v) = none := by
    rw [List.find?_eq_none]
    rintro ⟨w, q', t'⟩ hw he
    simp only [decide_eq_true_eq] at he
    subst he
    exact hnh _ _ _ _ _ hw hm
  rw [hf]
  cases hf : p.dispatchers.find? (fun x => x.1 = some v) with
  | none => exact absurd (List.find?_eq_none.mp hf _ hm) (by simp)
  | some x =>
    obtain ⟨w, q', t'⟩ := x
    have h1 := List.mem_of_find?_eq_some hf
    have h2 := List.find?_some hf
    simp only [decide_eq_true_eq] at h2
    subst h2
    exact h3 _ _ _ _ _ h1 hm

/-- every task executed by a handler is a task of the application, and it has the priority of the handler -/
theorem runs_prio (h : expand tg bits raw = .ok p) {n : Nat} {t : Ident} (hr : Runs p n t) :
    ∃ k args, TaskIs raw t k (handlerPrio p n) args := by
  obtain ⟨app, base, an, he⟩ := expand_ok h
  have hg := codegen_ok he.codegen
  have hdisp : ∀ {o : Option Ident} {q : Nat} {ts : List Ident}, (o, q, ts) ∈ p.dispatchers → t ∈ ts → ∃ args, TaskIs raw t .software q args := by
    intro o q ts hd ht
    obtain ⟨-, rfl, -⟩ := (mem_dispatchers hg).mp hd
    obtain ⟨st, hst, rfl⟩ := mem_channelTasks.mp ht
    obtain ⟨args, ha, -⟩ := he.says.sw _ _ hst
    exact ⟨args, ha⟩
  cases n with
  | zero =>
    rcases hr with hi | ⟨q, ts, hd, ht⟩
    · rw [hg.main] at hi
      have : ∃ i, app.idle = some i ∧ i.name = t := by
        simp only [mainStmts, preInitEnable, lastStmt] at hi
        simp at hi
        split at hi
        · rename_i i hi'; exact ⟨i, hi', by simp at hi; exact hi.symm⟩
        · split at hi <;> simp at hi
      obtain ⟨i, hi', rfl⟩ := this
      obtain ⟨args, ha, -⟩ := he.says.idle _ hi'
      exact ⟨_, _, ha⟩
    · obtain ⟨args, ha⟩ := hdisp hd ht
      have := (C44_one_dispatcher_per_priority h).2.2.2.2 _ _ hd
      subst this
      exact ⟨_, _, ha⟩
  | succ v =>
    rcases hr with ⟨q, hw⟩ | ⟨q, ts, hd, ht⟩
    · obtain ⟨args, ha⟩ := ((C44_dispatchers_not_hardware h).1 _ _ _).mp hw
      simp only [handlerPrio, vecPrio_hw h hw]
      exact ⟨_, _, ha⟩
    · obtain ⟨args, ha⟩ := hdisp hd ht
      simp only [handlerPrio, vecPrio_disp h hd]
      exact ⟨_, _, ha⟩

/-- every task of the application is executed by some handler -/
theorem runs_total (h : expand tg bits raw = .ok p) {t : Ident} {k : Kind} {q : Nat} {args : List TaskArg} (ht : TaskIs raw t k q args) : ∃ n, Runs p n t := by
  cases k with
  | idle =>
    obtain ⟨app, base, an, he⟩ := expand_ok h
    have hg := codegen_ok he.codegen
    obtain ⟨sh, lo, -, ⟨i, hi, rfl, -⟩ | ⟨_, _, _, hk, _⟩ | ⟨_, _, _, hk, _⟩⟩ := he.says.task _ _ _ _ ht
    · exact ⟨0, .inl (by rw [hg.main]; simp [mainStmts, lastStmt, hi])⟩
    · cases hk
    · cases hk
  | hardware v => exact ⟨v + 1, .inl ⟨q, ((C44_dispatchers_not_hardware h).1 _ _ _).mpr ⟨_, ht⟩⟩⟩
  | software =>
    obtain ⟨o, ts, hd, hm, -⟩ := C44_task_polled_by_own_dispatcher h ht
    cases o with
    | none => exact ⟨0, .inr ⟨_, _, hd, hm⟩⟩
    | some v => exact ⟨v + 1, .inr ⟨_, _, hd, hm⟩⟩

theorem handler_prio_le (h : expand tg bits raw = .ok p) (n : Nat) : handlerPrio p n ≤ 2 ^ bits := by
  cases n with
  | zero => exact Nat.zero_le _
  | succ v =>
    simp only [handlerPrio]
    unfold vecPrio
    cases hf : p.hwHandlers.find? (fun x => x.1 = v) with
    | some x =>
      obtain ⟨w, q, t⟩ := x
      obtain ⟨args, ha⟩ := ((C44_dispatchers_not_hardware h).1 _ _ _).mp (List.mem_of_find?_eq_some hf)
      exact task_prio_le h ha
    | none =>
      cases hf2 : p.dispatchers.find? (fun x => x.1 = some v) with
      | none => exact Nat.zero_le _
      | some x =>
        obtain ⟨w, q, ts⟩ := x
        have h2 := List.find?_some hf2
        simp only [decide_eq_true_eq] at h2
        subst h2
        have hm := List.mem_of_find?_eq_some hf2
        obtain ⟨t, args, ha⟩ := ((C44_one_dispatcher_per_priority h).1 q (((C44_one_dispatcher_per_priority h).2.2.2.1 _ _ _ hm).2)).mpr ⟨_, _, hm⟩
        exact task_prio_le h ha

/-- a name is the name of one task -/
theorem task_unique (h : expand tg bits raw = .ok p) {t : Ident} {k k' : Kind} {q q' : Nat} {args args' : List TaskArg} (h1 : TaskIs raw t k q args) (h2 : TaskIs raw t k' q' args') :
    k = k' ∧ q = q' := by
  obtain ⟨app, base, an, he⟩ := expand_ok h
  have hs := he.says
  obtain ⟨_, _, -, c1⟩ := hs.task _ _ _ _ h1
  obtain ⟨_, _, -, c2⟩ := hs.task _ _ _ _ h2
  rcases c1 with ⟨i, hi, rfl, rfl, rfl, -⟩ | ⟨x, hx, rfl, rfl, -⟩ | ⟨x, hx, rfl, rfl, -⟩ <;>
    rcases c2 with ⟨j, hj, hn, rfl, rfl, -⟩ | ⟨y, hy, rfl, rfl, -⟩ | ⟨y, hy, rfl, rfl, -⟩
  · exact ⟨rfl, rfl⟩
  · exact absurd hy (hs.idleHw _ _ hi)
  · exact absurd hy (hs.idleSw _ _ hi)
  · subst hn; exact absurd hx (hs.idleHw _ _ hj)
  · cases nodup_fst hs.nodupHw hx hy; exact ⟨rfl, rfl⟩
  · exact absurd hy (hs.hwSw _ _ _ hx)
  · subst hn; exact absurd hx (hs.idleSw _ _ hj)
  · exact absurd hx (hs.hwSw _ _ _ hy)
  · cases nodup_fst hs.nodupSw hx hy; exact ⟨rfl, rfl⟩

/-- every context belongs to a task -/
theorem context_task (h : expand tg bits raw = .ok p) {c : Context} (hc : c ∈ p.contexts) :
    (∃ k args, TaskIs raw c.task k c.priority args) ∧ (∀ r hd, (r, hd) ∈ c.shared → ∃ a res, UsesShared raw c.task c.priority r a ∧ SharedField raw r res ∧ hd = handleOf res a) ∧
    ∀ r, (r, true) ∈ c.locals → UsesLocal raw c.task c.priority r := by
  obtain ⟨app, base, an, he⟩ := expand_ok h
  have hg := codegen_ok he.codegen
  have hs := he.says
  have hsh : ∀ {n q as sh lo}, context app n q as sh lo = .ok c → (∀ r a, (r, a) ∈ sh → AppShared app n q r a) → (∀ r a, (r, a) ∈ lo → AppLocal app n q r a) →
      (∀ r hd, (r, hd) ∈ c.shared → ∃ a res, UsesShared raw c.task c.priority r a ∧ SharedField raw r res ∧ hd = handleOf res a) ∧
      ∀ r, (r, true) ∈ c.locals → UsesLocal raw c.task c.priority r := by
    intro n q as sh lo hx h1 h2
    obtain ⟨rfl, rfl, -, hh, hl⟩ := context_ok hx
    constructor
    · intro r hd hm
      obtain ⟨a, res, ha, hget, rfl⟩ := (sharedHandles_ok hh).mp hm
      refine ⟨a, res, hs.uses.mpr (h1 r a ha), (hs.sharedRes r res).mp ?_, rfl⟩
      exact get?_some_mem hget
    · intro r hm
      obtain ⟨k, hk, hiff⟩ := (localHandles_ok hl).mp hm
      have := hiff.mp rfl
      subst this
      exact hs.usesLocal.mpr (h2 r _ hk)
  rcases (mem_contexts hg.contexts).1 c hc with ⟨i, hi, hx⟩ | ⟨n, x, hi, hx⟩ | ⟨n, x, hi, hx⟩
  · obtain ⟨args, ha, -⟩ := hs.idle _ hi
    obtain ⟨h1, h2, -⟩ := context_ok hx
    exact ⟨⟨_, _, by rw [h1, h2]; exact ha⟩, hsh hx (fun r a hm => .inl ⟨i, hi, rfl, rfl, hm⟩) (fun r a hm => .inl ⟨i, hi, rfl, rfl, hm⟩)⟩
  · obtain ⟨args, ha, -⟩ := hs.hw _ _ hi
    obtain ⟨h1, h2, -⟩ := context_ok hx
    exact ⟨⟨_, _, by rw [h1, h2]; exact ha⟩, hsh hx (fun r a hm => .inr (.inl ⟨x, hi, rfl, hm⟩)) (fun r a hm => .inr (.inl ⟨x, hi, rfl, hm⟩))⟩
  · obtain ⟨args, ha, -⟩ := hs.sw _ _ hi
    obtain ⟨h1, h2, -⟩ := context_ok hx
    exact ⟨⟨_, _, by rw [h1, h2]; exact ha⟩, hsh hx (fun r a hm => .inr (.inr ⟨x, hi, rfl, hm⟩)) (fun r a hm => .inr (.inr ⟨x, hi, rfl, hm⟩))⟩

theorem lookup_unique {l : List (Ident × Nat)} {r : Ident} {c : Nat} (h : ∀ c', (r, c') ∈ l ↔ c' = c) : (l.lookup r).getD 0 = c := by
  cases hl : l.lookup r with
  | none =>
    have := (h c).mpr rfl
    rw [List.lookup_eq_none_iff] at hl
    exact absurd (hl _ this) (by simp)
  | some x =>
    have : (r, x) ∈ l := get?_some_mem hl
    exact (h x).mp this

theorem lookup_none {l : List (Ident × Nat)} {r : Ident} (h : ∀ c', (r, c') ∉ l) : (l.lookup r).getD 0 = 0 := by
  cases hl : l.lookup r with
  | none => rfl
  | some x => exact absurd (get?_some_mem hl) (h x)

/-- The machine of an accepted application satisfies the assumptions under which locking was proved correct. -/
theorem appCfg_wellFormed (h : expand tg bits raw = .ok p) (hb : bits ≤ 7) (hcol : NoCollision raw) : Srp.WellFormed (appCfg bits p) where
  bits := hb
  prio := handler_prio_le h
  ceil := by
    rintro n r ⟨c, hc, hr, hm⟩
    obtain ⟨-, hsh, -⟩ := context_task h hc
    obtain ⟨a, res, hu, hf, hh⟩ := hsh r _ hm
    have hlf : res.lockFree = false := by
      unfold handleOf at hh
      cases hl : res.lockFree with
      | false => rfl
      | true => rw [hl] at hh; simp at hh; split at hh <;> cases hh
    obtain ⟨ce, huniq, hmax, -⟩ := C40_ceiling_is_max_partial h hf hlf (fun t q hl => hcol t q r res hl hf)
    obtain ⟨k, args, ht⟩ := runs_prio h hr
    have ⟨k', args', l, ht', _⟩ := hu
    have := (task_unique h ht ht').2
    simp only [appCfg, lookup_unique huniq, this]
    exact hmax _ _ _ hu
  ceilMax := by
    intro r
    simp only [appCfg]
    by_cases hm : ∃ ce, (r, ce) ∈ p.mutexes
    · obtain ⟨ce, hce⟩ := hm
      obtain ⟨app, base, an, he⟩ := expand_ok h
      have hg := codegen_ok he.codegen
      have : ∃ res, SharedField raw r res ∧ res.lockFree = false := by
        rw [hg.mutexes] at hce
        simp only [List.mem_map, List.mem_filter, Prod.mk.injEq] at hce
        obtain ⟨⟨k, res⟩, ⟨hk, hl⟩, rfl, -⟩ := hce
        exact ⟨res, (he.says.sharedRes _ _).mp hk, by simpa using hl⟩
      obtain ⟨res, hf, hlf⟩ := this
      obtain ⟨ce, huniq, -, hatt⟩ := C40_ceiling_is_max_partial h hf hlf (fun t q hl => hcol t q r res hl hf)
      rw [lookup_unique huniq]
      rcases hatt with ⟨t, a, k, args, l, ht, -⟩ | ⟨rfl, -⟩
      · exact task_prio_le h ht
      · exact Nat.zero_le _
    · rw [lookup_none (fun c' hc => hm ⟨c', hc⟩)]; exact Nat.zero_le _

/-- resource named by a record of the stack -/
def resOf : Srp.Rec → Option Nat
  | .lk0 r _ | .lk r _ => some r
  | .cs0 o _ | .cs o _ => o
  | _ => none

/-- resources appearing on the stack are used by somebody -/
theorem stack_uses {c : Srp.Cfg} {idle : Nat} {as : List Srp.Act} {s : Srp.St} (hx : Srp.Exec c (Srp.start idle) as s) :
    ∀ x ∈ s.stack, ∀ r, resOf x = some r → ∃ t, c.uses t r := by
  generalize hs0 : Srp.start idle = s0 at hx
  induction hx with
  | nil => subst hs0; simp [Srp.start, resOf]
  | snoc hx hs ih =>
    cases hs
    case raise r' cur rest h =>
      have := ih (.lk0 r' cur) (by rw [h]; simp) r' rfl
      intro x hm r hr
      simp only [List.mem_cons] at hm
      grind [resOf]
    case raiseCs o m rest h =>
      have := ih (.cs0 o m) (by rw [h]; simp)
      intro x hm r hr
      simp only [List.mem_cons] at hm
      grind [resOf]
    all_goals intro x hm r hr <;> simp only [List.mem_cons] at hm <;> grind [resOf]

/-- **C64** (lock) Take any accepted application, on a BASEPRI target, without shared and local resources of the same name; any execution: any arrival of interrupts, any nesting of locks and critical sections.
If a task is inside `lock` on resource `r` (record `x` on the stack), then no handler started since then (activation `y` of handler `n`) executes a task that has `r` in its `shared` list. -/
theorem C64_lock_exclusive (h : expand tg bits raw = .ok p) (hb : bits ≤ 7) (hcol : NoCollision raw) {as : List Srp.Act} {s : Srp.St} (hx : Srp.Exec (appCfg bits p) (Srp.start 0) as s)
    {above below : List Srp.Rec} {x y : Srp.Rec} {r : Ident} {n : Nat} (hst : s.stack = above ++ x :: below) (hl : Srp.InsideLock r x) (hy : y ∈ above) (hn : Srp.ActivationOf n y)
    {t : Ident} (ht : Runs p n t) (q : Nat) (a : Access) : ¬ UsesShared raw t q r a := by
  intro hu
  have hwf := appCfg_wellFormed h hb hcol
  have hno := Srp.C46_mutual_exclusion hwf (idle := 0) rfl hx hst hl hy hn
  -- somebody locks `r`
  have hx1 : ∃ m, (appCfg bits p).uses m r := by
    refine stack_uses hx x (by rw [hst]; simp) r ?_
    cases x with
    | lk r' m => simp only [Srp.InsideLock] at hl; subst hl; rfl
    | cs o m => cases o with
      | none => exact absurd hl id
      | some r' => simp only [Srp.InsideLock] at hl; subst hl; rfl
    | _ => exact absurd hl id
  obtain ⟨m, c, hc, -, hm⟩ := hx1
  obtain ⟨a', res, hu', hf, hh⟩ := (context_task h hc).2.1 r _ hm
  have hae : a' = .exclusive ∧ res.lockFree = false := by
    unfold handleOf at hh
    cases hlf : res.lockFree <;> cases a' <;> simp [hlf] at hh ⊢
  have ha : a = .exclusive := by rw [← hae.1]; exact (C45_resources_validated h).2.2 _ _ _ _ _ _ _ hu hu'
  subst ha
  obtain ⟨k, args, l, hti, hla, hrl⟩ := hu
  obtain ⟨c, hc, hct, -, -, hproxy, -⟩ := C40_handles h hti
  exact hno ⟨c, hc, by rw [hct]; exact ht, (hproxy r).mpr ⟨⟨l, hla, hrl⟩, res, hf, hae.2⟩⟩

/-- Tasks of two handlers that are active at the same time have different priorities. -/
theorem active_prio (h : expand tg bits raw = .ok p) (hb : bits ≤ 7) (hcol : NoCollision raw) {as : List Srp.Act} {s : Srp.St} (hx : Srp.Exec (appCfg bits p) (Srp.start 0) as s)
    {above below : List Srp.Rec} {x y : Srp.Rec} {n m : Nat} (hst : s.stack = above ++ x :: below) (hn : Srp.ActivationOf n x) (hy : y ∈ below) (hm : Srp.ActivationOf m y)
    {t t' : Ident} (ht : Runs p n t) (ht' : Runs p m t') {q q' : Nat} {k k' : Kind} {args args' : List TaskArg} (hi : TaskIs raw t k q args) (hi' : TaskIs raw t' k' q' args') : q' < q := by
  have hlt := Srp.C52_running_is_highest (appCfg_wellFormed h hb hcol) (idle := 0) rfl hx hst hn hy hm
  obtain ⟨_, _, h1⟩ := runs_prio h ht
  obtain ⟨_, _, h2⟩ := runs_prio h ht'
  have e1 := (task_unique h hi h1).2
  have e2 := (task_unique h hi' h2).2
  simp only [appCfg] at hlt
  omega

/-- **C64** (`lock_free`) In the same setting: two handlers that are active at the same time never execute tasks that both have the same `lock_free` resource, which they access without locking. -/
theorem C64_lock_free_exclusive (h : expand tg bits raw = .ok p) (hb : bits ≤ 7) (hcol : NoCollision raw) {as : List Srp.Act} {s : Srp.St} (hx : Srp.Exec (appCfg bits p) (Srp.start 0) as s)
    {above below : List Srp.Rec} {x y : Srp.Rec} {n m : Nat} (hst : s.stack = above ++ x :: below) (hn : Srp.ActivationOf n x) (hy : y ∈ below) (hm : Srp.ActivationOf m y)
    {t t' : Ident} (ht : Runs p n t) (ht' : Runs p m t') {r : Ident} {res : SharedRes} (hr : SharedField raw r res) (hlf : res.lockFree = true) {q q' : Nat} {a a' : Access}
    (hu : UsesShared raw t q r a) : ¬ UsesShared raw t' q' r a' := by
  intro hu'
  have heq := (C41_lock_free_single_priority h hr hlf).1 _ _ _ _ _ _ hu hu'
  obtain ⟨k, args, l, hti, -⟩ := hu
  obtain ⟨k', args', l', hti', -⟩ := hu'
  have := active_prio h hb hcol hx hst hn hy hm ht ht' hti hti'
  omega

/-- **C64** (local) In the same setting: two handlers that are active at the same time never execute tasks that both have the same `#[local]` resource. -/
theorem C64_local_exclusive (h : expand tg bits raw = .ok p) (hb : bits ≤ 7) (hcol : NoCollision raw) {as : List Srp.Act} {s : Srp.St} (hx : Srp.Exec (appCfg bits p) (Srp.start 0) as s)
    {above below : List Srp.Rec} {x y : Srp.Rec} {n m : Nat} (hst : s.stack = above ++ x :: below) (hn : Srp.ActivationOf n x) (hy : y ∈ below) (hm : Srp.ActivationOf m y)
    {t t' : Ident} (ht : Runs p n t) (ht' : Runs p m t') {r : Ident} {q q' : Nat} (hu : UsesLocal raw t q r) : ¬ UsesLocal raw t' q' r := by
  intro hu'
  obtain ⟨ty, hr⟩ := (C45_resources_validated h).2.1 _ _ _ hu
  have heq := (C42_local_exclusive h hr).1 _ _ _ _ hu hu'
  subst heq
  obtain ⟨k, args, l, hti, -⟩ := hu
  obtain ⟨k', args', l', hti', -⟩ := hu'
  have := active_prio h hb hcol hx hst hn hy hm ht ht' hti hti'
  have := (task_unique h hti hti').2
  omega

/-- **C64** (by reference) A resource that some task takes by reference (`&r`) is never locked by anybody and handed out exclusively to nobody. -/
theorem C64_reference_never_exclusive (h : expand tg bits raw = .ok p) {t : Ident} {q : Nat} {r : Ident} (hu : UsesShared raw t q r .shared) :
    ∀ c ∈ p.contexts, (r, .proxy) ∉ c.shared ∧ (r, .direct) ∉ c.shared := by
  intro c hc
  constructor <;>
  · intro hm
    obtain ⟨a', res, hu', hf, hh⟩ := (context_task h hc).2.1 r _ hm
    have := (C45_resources_validated h).2.2 _ _ _ _ _ _ _ hu hu'
    subst this
    unfold handleOf at hh
    cases hlf : res.lockFree <;> simp [hlf] at hh

/-- **C64** Every task of the application is executed by a handler, which has the priority of the task: the theorems above speak about all tasks. -/
theorem C64_all_tasks_run (h : expand tg bits raw = .ok p) {t : Ident} {k : Kind} {q : Nat} {args : List TaskArg} (ht : TaskIs raw t k q args) :
    ∃ n, Runs p n t ∧ (appCfg bits p).prio n = q := by
  obtain ⟨n, hn⟩ := runs_total h ht
  obtain ⟨_, _, h1⟩ := runs_prio h hn
  exact ⟨n, hn, (task_unique h h1 ht).2⟩

/-- ceilings of an accepted application bound the priorities of the handlers -/
theorem ceil_bounds (h : expand tg bits raw = .ok p) (hcol : NoCollision raw) {n r : Nat} (hu : ∃ c ∈ p.contexts, Runs p n c.task ∧ (r, .proxy) ∈ c.shared) :
    handlerPrio p n ≤ (p.mutexes.lookup r).getD 0 := by
  obtain ⟨c, hc, hr, hm⟩ := hu
  obtain ⟨-, hsh, -⟩ := context_task h hc
  obtain ⟨a, res, hu, hf, hh⟩ := hsh r _ hm
  have hlf : res.lockFree = false := by
    unfold handleOf at hh
    cases hl : res.lockFree with
    | false => rfl
    | true => rw [hl] at hh; simp at hh; split at hh <;> cases hh
  obtain ⟨ce, huniq, hmax, -⟩ := C40_ceiling_is_max_partial h hf hlf (fun t q hl => hcol t q r res hl hf)
  obtain ⟨k, args, ht⟩ := runs_prio h hr
  have ⟨k', args', l, ht', _⟩ := hu
  rw [lookup_unique huniq, (task_unique h ht ht').2]
  exact hmax _ _ _ hu

theorem maskCfg_wellFormed (h : expand tg bits raw = .ok p) (hcol : NoCollision raw) (num : Ident → Nat) : SourceMask.WellFormed (maskCfg tg num p) where
  masks := by
    have hp : ∀ x ∈ appIrqs tg num p, 1 ≤ x.1 := by
      intro x hx
      simp only [appIrqs, List.mem_append, List.mem_filterMap, List.mem_map, List.mem_filter, Option.map_eq_some_iff] at hx
      rcases hx with ⟨⟨o, q, ts⟩, hd, v, ho, rfl⟩ | ⟨⟨v, q, t⟩, ⟨hw, -⟩, rfl⟩
      · simp only at ho; subst ho
        exact ((C44_one_dispatcher_per_priority h).2.2.2.1 _ _ _ hd).2
      · obtain ⟨args, ha⟩ := ((C44_dispatchers_not_hardware h).1 _ _ _).mp hw
        obtain ⟨app, base, an, he⟩ := expand_ok h
        obtain ⟨_, _, -, ⟨i, hi, rfl, rfl, hk, -⟩ | ⟨x, hx, rfl, hk, -⟩ | ⟨x, hx, rfl, hk, -⟩⟩ := he.says.task _ _ _ _ ha
        · cases hk
        · exact (he.says.hwPrio _ _ hx).1
        · cases hk
    obtain ⟨masks, hm, -⟩ := SourceMask.C50_masks_exact _ hp
    simp only [maskCfg, hm, Option.getD_some]
  listed := by
    intro n m hb hp
    cases n with
    | zero => cases hb
    | succ v =>
      simp only [maskCfg, bindOf] at hb
      split at hb
      · cases hb
      · rename_i hex
        simp only [Option.some.injEq] at hb
        subst hb
        simp only [maskCfg, handlerPrio] at hp ⊢
        simp only [appIrqs, List.mem_append, List.mem_filterMap, List.mem_map, List.mem_filter]
        unfold vecPrio at hp ⊢
        cases hf : p.hwHandlers.find? (fun x => x.1 = v) with
        | some x =>
          have h2 := List.find?_some hf
          simp only [decide_eq_true_eq] at h2
          exact .inr ⟨x, ⟨List.mem_of_find?_eq_some hf, by simp [h2, hex]⟩, by simp [h2]⟩
        | none =>
          rw [hf] at hp
          cases hf2 : p.dispatchers.find? (fun x => x.1 = some v) with
          | none => rw [hf2] at hp; exact absurd hp (by simp)
          | some x =>
            have h2 := List.find?_some hf2
            simp only [decide_eq_true_eq] at h2
            exact .inl ⟨x, List.mem_of_find?_eq_some hf2, by simp [h2]⟩
  ceil := fun n r hu => ceil_bounds h hcol hu

/-- **C64** (lock, targets without BASEPRI) Take any accepted application without shared and local resources of the same name, compiled with interrupt masking, any numbering of the interrupts and any execution. If a task is inside `lock` on
resource `r` (record `x`), no handler started since then that is bound to an interrupt executes a task that locks `r`. (For exceptions see C59.) -/
theorem C64_mask_lock_exclusive (h : expand tg bits raw = .ok p) (hcol : NoCollision raw) {num : Ident → Nat} {e0 : SourceMask.Regs} {as : List SourceMask.Act} {s : SourceMask.St}
    (hx : SourceMask.Exec (maskCfg tg num p) (SourceMask.start 0 e0) as s)
    {above below : List SourceMask.Rec} {x y : SourceMask.Rec} {r v : Ident} (hst : s.stack = above ++ x :: below) (hl : SourceMask.InsideLock r x) (hy : y ∈ above)
    (hn : SourceMask.ActivationOf (v + 1) y) (hex : tg.isException v = false)
    {t : Ident} (ht : Runs p (v + 1) t) {res : SharedRes} (hr : SharedField raw r res) (hlf : res.lockFree = false) (q : Nat) : ¬ UsesShared raw t q r .exclusive := by
  intro hu
  have hno := SourceMask.C49_mutual_exclusion (maskCfg_wellFormed h hcol num) (idle := 0) rfl hx hst hl hy hn (n := num v) (by simp [maskCfg, bindOf, hex])
  obtain ⟨k, args, l, hti, hla, hrl⟩ := hu
  obtain ⟨c, hc, hct, -, -, hproxy, -⟩ := C40_handles h hti
  exact hno ⟨c, hc, by rw [hct]; exact ht, (hproxy r).mpr ⟨⟨l, hla, hrl⟩, res, hr, hlf⟩⟩

/-! ### Examples -/

theorem exRaw_noCollision : NoCollision exRaw := by
  intro t q r res hl hf
  obtain ⟨i, f, hm, hr⟩ := hf
  obtain ⟨ty, j, g, hm', hr'⟩ := (C45_resources_validated exRaw_accepted).2.1 _ _ _ hl
  simp [exRaw] at hm hm'
  obtain ⟨-, rfl⟩ := hm
  obtain ⟨-, rfl⟩ := hm'
  simp at hr hr'
  rcases hr with ⟨rfl, -⟩ | ⟨rfl, -⟩ | ⟨rfl, -⟩ <;> exact absurd hr'.1 (by decide)

/-- in the example, idle locks resource 10; it is preempted by the dispatcher of priority 3 (vector 51, handler 52), which uses other resources -/
example : ∃ as s, Srp.Exec (appCfg 4 exProg) (Srp.start 0) as s ∧ s.stack = [.enter 52, .lk 10 0, .body 0 none] ∧ Runs exProg 52 23 ∧ Runs exProg 0 4 := by
  refine ⟨[] ++ [.lock 10] ++ [.raise] ++ [.irq 52], ⟨[.enter 52, .lk 10 0, .body 0 none], 0xe0, false⟩, ?_, rfl, ?_, ?_⟩
  · refine .snoc (.snoc (.snoc (.nil _) (.lock 0 10 rfl rfl ?_ (by decide))) (.raise 10 0 _ rfl)) (.irq 52 0 rfl (by decide) (by decide))
    exact ⟨_, List.mem_cons_self, .inl (by decide), by decide⟩
  · exact .inr ⟨3, [23, 24], by decide, by decide⟩
  · exact .inl (by decide)

/-- in the example with interrupt masking, the interrupt of vector `v` having number `v`: idle inside `lock` on resource 10, preempted by the dispatcher of priority 3 -/
example : ∃ as s o, SourceMask.Exec (maskCfg exTarget id exProg) (SourceMask.start 0 (fun _ => 0xffffffff#32)) as s ∧ s.stack = [.body 52, .lk 10 o, .body 0] := by
  have hu : (maskCfg exTarget id exProg).uses 0 10 := ⟨_, List.mem_cons_self, .inl (by decide), by decide⟩
  have h1 := SourceMask.Exec.snoc (SourceMask.Exec.nil (c := maskCfg exTarget id exProg) (SourceMask.start 0 (fun _ => 0xffffffff#32))) (.lock 0 10 rfl rfl hu (by decide))
  have h2 := h1.snoc (.rd 10 0 _ _ rfl (by decide))
  have h3 := h2.snoc (.rd 10 1 _ _ rfl (by decide))
  have h4 := h3.snoc (.rdEnd 10 2 _ _ rfl (by decide))
  have h5 := h4.snoc (.cl 10 0 _ _ rfl (by decide))
  have h6 := h5.snoc (.cl 10 1 _ _ rfl (by decide))
  have h7 := h6.snoc (.clEnd 10 2 _ _ rfl (by decide))
  have h8 := h7.snoc (.irq 52 0 rfl ⟨rfl, by decide, fun n hn => by
    have : n = 51 := by simpa [maskCfg, bindOf, exTarget] using hn.symm
    subst this
    decide⟩)
  exact ⟨_, _, _, h8, rfl⟩

/-- the program generated for `collisionRaw` -/
def collisionProg : Program :=
  { contexts := [{ task := 4, priority := 0, isAsync := false, shared := [], locals := [(10, true)] },
      { task := 20, priority := 1, isAsync := false, shared := [(10, .proxy)], locals := [] }, { task := 21, priority := 2, isAsync := false, shared := [(10, .proxy)], locals := [] }],
    mutexes := [(10, 0)], hwHandlers := [(60, 1, 20), (61, 2, 21)], dispatchers := [], pends := [], localSpawn := [], freeSpawn := [], sendAsserts := [], syncAsserts := [], asyncMax := some 0,
    main := [.disableInterrupts, .setPriority 60 1, .unmask 60, .setPriority 61 2, .unmask 61, .callInit, .writeShared 10, .writeLocal 10, .enableInterrupts, .callIdle 4] }

/-- **C40** (consequence of the wrong ceiling) The accepted application `collisionRaw`, in which a local and a shared resource have the same name, has an execution in which task 20 is inside `lock` on the shared resource 10, and
task 21 preempts it and is inside `lock` on the same resource. -/
theorem C40_exclusion_violated : ∃ p as s, expand exTarget 4 collisionRaw = .ok p ∧ Srp.Exec (appCfg 4 p) (Srp.start 0) as s ∧
    s.stack = [.lk 10 0, .body 62 (some 0), .lk 10 0, .body 61 none, .body 0 none] ∧ Runs p 61 20 ∧ Runs p 62 21 := by
  refine ⟨collisionProg, [] ++ [.irq 61] ++ [.readInitial] ++ [.lock 10] ++ [.raise] ++ [.irq 62] ++ [.readInitial] ++ [.lock 10] ++ [.raise],
    ⟨[.lk 10 0, .body 62 (some 0), .lk 10 0, .body 61 none, .body 0 none], 0, false⟩, by decide +kernel, ?_, rfl, .inl ⟨1, by decide⟩, .inl ⟨2, by decide⟩⟩
  have u1 : (appCfg 4 collisionProg).uses 61 10 := ⟨⟨20, 1, false, [(10, .proxy)], []⟩, by decide, .inl ⟨1, by decide⟩, by decide⟩
  have u2 : (appCfg 4 collisionProg).uses 62 10 := ⟨⟨21, 2, false, [(10, .proxy)], []⟩, by decide, .inl ⟨2, by decide⟩, by decide⟩
  exact .snoc (.snoc (.snoc (.snoc (.snoc (.snoc (.snoc (.snoc (.nil _) (.irq 61 0 rfl (by decide) (by decide))) (.readInitial 61 _ rfl)) (.lock 61 10 rfl rfl u1 (by decide))) (.raise 10 0 _ rfl))
    (.irq 62 61 rfl (by decide) (by decide))) (.readInitial 62 _ rfl)) (.lock 62 10 rfl rfl u2 (by decide))) (.raise 10 0 _ rfl)

end Verif.EndToEnd
