import Verif.EndToEnd.MaskSystem
import Verif.MaskSystem.Register

/-!
# C91 for accepted applications: the conditions on the tasks of lower priority cannot be weakened
-/

namespace Verif.EndToEnd

open Verif.Analysis

variable {tg : Target} {bits : Nat} {raw : Raw} {p : Program}

/-- the handler of a hardware task is not a dispatcher -/
theorem mask_notPolled (h : expand tg bits raw = .ok p) {v : Ident} {q : Nat} {t : Ident} (hw : (v, q, t) ∈ p.hwHandlers) : polledBy p (v + 1) = none := by
  obtain ⟨-, -, hdis⟩ := C44_dispatchers_not_hardware h
  simp only [polledBy, vecOf, Option.map_eq_none_iff, List.find?_eq_none]
  rintro ⟨o, q', ts⟩ hm
  intro hx
  obtain rfl : o = some v := of_decide_eq_true hx
  exact hdis _ _ _ _ _ hw hm

/-- without software tasks of priority 0 the thread polls nothing -/
theorem mask_idle_notPolled (h : expand tg bits raw = .ok p) (hz : ∀ x args, ¬ TaskIs raw x .software 0 args) : polledBy p 0 = none := by
  simp only [polledBy, vecOf, Option.map_eq_none_iff, List.find?_eq_none]
  rintro ⟨o, q', ts⟩ hm
  intro hx
  obtain rfl : o = none := of_decide_eq_true hx
  obtain rfl := (C44_one_dispatcher_per_priority h).2.2.2.2 _ _ hm
  obtain ⟨app, base, an, he⟩ := expand_ok h
  have hg := codegen_ok he.codegen
  obtain ⟨⟨st, hst, hp⟩, -, -⟩ := (mem_dispatchers hg).mp hm
  obtain ⟨args, ha, -⟩ := he.says.sw _ _ hst
  rw [hp] at ha
  exact hz _ _ ha

/-- **C91** (accepted applications; the conditions on the tasks of lower priority cannot be weakened) Take any accepted application without software tasks of priority 0 and without shared and local resources of the same name, in which: a software task `t` of priority `q` is polled by the dispatcher of vector `v`; a hardware task `t'` of lower priority is bound to an interrupt of another register or to an exception; `idle` locks a
resource `r` some user of which has at least the priority `q`; and a hardware task is more urgent than all users of `r` (whose priorities are below 4). It has an execution from the start of `idle` in which a task calls `spawn` of `t` successfully, and after this call has returned, and before `t` is polled, `t'` is started. -/
theorem C91_app_not_plain_violated (h : expand tg bits raw = .ok p) (hcol : NoCollision raw) {num : Ident → Nat} {e0 : SourceMask.Regs}
    (hinj : ∀ v w, UsedVec p v → UsedVec p w → tg.isException v = false → tg.isException w = false → num v = num w → v = w)
    (hon : ∀ v, UsedVec p v → tg.isException v = false → SourceMask.enabled e0 (num v) = true) (hz : ∀ x args, ¬ TaskIs raw x .software 0 args)
    {i : Ident} {argsi : List TaskArg} {l : List (Ident × Access)} {r : Ident} {res : SharedRes} (hi : TaskIs raw i .idle 0 argsi) (hl : .shared l ∈ argsi) (hrl : (r, .exclusive) ∈ l) (hf : SharedField raw r res) (hlf : res.lockFree = false)
    {t : Ident} {q : Nat} {args : List TaskArg} (ht : TaskIs raw t .software q args) {v : Ident} (hr : Runs p (v + 1) t)
    {t' b' : Ident} {q' : Nat} {args' : List TaskArg} (ht' : TaskIs raw t' (.hardware b') q' args') (hlt : q' < q) (hfree : tg.isException b' = true ∨ num v / 32 ≠ num b' / 32)
    {k bk : Ident} {qk : Nat} {argsk : List TaskArg} (hk : TaskIs raw k (.hardware bk) qk argsk)
    (huse : ∃ x q'' ac, UsesShared raw x q'' r ac ∧ q ≤ q'') (hmax : ∀ x q'' ac, UsesShared raw x q'' r ac → q'' < 4 ∧ q'' < qk) (a : Nat) :
    ∃ st s0 s1 s2 s3 as0 as1 as2 tr0, MaskSystem.Start (maskSysCfg tg num p) e0 st ∧ MaskSystem.Exec (maskSysCfg tg num p) st as0 tr0 s0 ∧ MaskSystem.Step (maskSysCfg tg num p) s0 (.call (v + 1)) [(v + 1, .ok t a)] s1 ∧
      MaskSystem.Exec (maskSysCfg tg num p) s1 as1 [] s2 ∧ (s2.ex (v + 1)).pc (MaskSystem.depth s0.m.stack) = .idle ∧ MaskSystem.Exec (maskSysCfg tg num p) s2 as2 [] s3 ∧ .irq (b' + 1) ∈ as2 := by
  obtain ⟨hhw, -, -⟩ := C44_dispatchers_not_hardware h
  have hw' := (hhw _ _ _).2 ⟨_, ht'⟩
  have hwk := (hhw _ _ _).2 ⟨_, hk⟩
  obtain ⟨ts, hts, htm⟩ := polledBy_of_runs h ht hr
  obtain ⟨q0, hd⟩ := polled_dispatcher hts
  have hev := dispatcher_irq h hd
  obtain ⟨_, _, h3⟩ := runs_prio h hr
  have eq : handlerPrio p (v + 1) = q := ((task_unique h ht h3).2).symm
  have eq' : handlerPrio p (b' + 1) = q' := vecPrio_hw h hw'
  have ek : handlerPrio p (bk + 1) = qk := vecPrio_hw h hwk
  have one : 1 ≤ q' := by
    obtain ⟨app, base, an, he⟩ := expand_ok h
    obtain ⟨_, _, -, ⟨_, _, _, _, hk, -⟩ | ⟨x, hx, rfl, hk, -⟩ | ⟨x, hx, rfl, hk, -⟩⟩ := he.says.task _ _ _ _ ht'
    · cases hk
    · exact (he.says.hwPrio _ _ hx).1
    · cases hk
  -- the ceiling
  obtain ⟨ce, huniq, hce, hatt⟩ := C40_ceiling_is_max_partial h hf hlf (fun t q hl => hcol t q r res hl hf)
  have ec : (maskCfg tg num p).ceil r = ce := lookup_unique huniq
  obtain ⟨x, q'', ac, hux, hq⟩ := huse
  have c1 : q ≤ ce := Nat.le_trans hq (hce _ _ _ hux)
  have c2 : ce < 4 ∧ ce < qk := by
    rcases hatt with ⟨y, ay, hy⟩ | ⟨h0, -⟩
    · exact hmax _ _ _ hy
    · omega
  -- idle locks it
  have hu0 : (maskCfg tg num p).uses 0 r := by
    obtain ⟨c, hc, rfl, -, -, hpx, -⟩ := C40_handles h hi
    refine ⟨c, hc, ?_, (hpx r).2 ⟨⟨l, hl, hrl⟩, res, hf, hlf⟩⟩
    obtain ⟨app, base, an, he⟩ := expand_ok h
    have hg := codegen_ok he.codegen
    obtain ⟨_, _, -, ⟨j, hj, e, -⟩ | ⟨_, _, _, hk, _⟩ | ⟨_, _, _, hk, _⟩⟩ := he.says.task _ _ _ _ hi
    · exact .inl (by rw [hg.main]; simp [mainStmts, lastStmt, hj, e])
    · cases hk
    · cases hk
  refine MaskSystem.C91_not_plain_violated (c := maskSysCfg tg num p) (d := v + 1) (t' := b' + 1) (k := bk + 1) (n := num v) (r := r) (u := t) (a := a) (ts := ts) (maskCfg_wellFormed h hcol num) rfl (mask_idle_notPolled h hz)
    (appIrqs_unique h hinj) hu0 ?_ hts htm ?_ ?_ ?_ (mask_notPolled h hw') (mask_notPolled h hwk) ?_ ?_ ?_ ?_
  · show (maskCfg tg num p).ceil r < 4
    omega
  · show handlerPrio p (v + 1) ≤ (maskCfg tg num p).ceil r
    omega
  · show 1 ≤ handlerPrio p (b' + 1)
    omega
  · show handlerPrio p (b' + 1) < handlerPrio p (v + 1)
    omega
  · show (maskCfg tg num p).ceil r < handlerPrio p (bk + 1)
    omega
  · simp [maskSysCfg, maskCfg, bindOf, hev]
  · cases hb' : tg.isException b' with
    | true => exact .inl (by simp [maskSysCfg, maskCfg, bindOf, hb'])
    | false => exact .inr ⟨num b', by simp [maskSysCfg, maskCfg, bindOf, hb'], hfree.resolve_left (by simp [hb']), hon _ (.inl ⟨_, _, hw'⟩) hb'⟩
  · intro m hm
    simp only [maskSysCfg, maskCfg, bindOf] at hm
    split at hm
    · cases hm
    · next he =>
      cases hm
      exact hon _ (.inl ⟨_, _, hwk⟩) (by simpa using he)

/-! ### Example

```
#[app(dispatchers = [i50])]
mod app {
    #[shared] struct Shared { r10: T10 }
    #[local] struct Local {}
    #[init] fn init(..) -> (Shared, Local)
    #[idle(shared = [r10])] fn idle
    #[task(binds = i60, priority = 1)] fn t20
    #[task(binds = i61, priority = 3)] fn t21
    #[task(priority = 2, shared = [r10])] async fn t22
}
```
The interrupts 50, 61 and 60 have the numbers 0, 11 and 40. -/

def regRaw : Raw :=
  { dispatchers := [50],
    items := [
      .sharedStruct 1 [(10, { ty := 110, lockFree := false })],
      .localStruct 2 [],
      .init 3 [] true 1 2,
      .idle 4 [.shared [(10, .exclusive)]] true,
      .task 20 [.binds 60, .priority 1] false [] true,
      .task 21 [.binds 61, .priority 3] false [] true,
      .task 22 [.priority 2, .shared [(10, .exclusive)]] true [] true] }

def regNum (v : Ident) : Nat := if v = 60 then 40 else v - 50

def regProg : Program :=
  { contexts := [
      { task := 4, priority := 0, isAsync := false, shared := [(10, .proxy)], locals := [] },
      { task := 20, priority := 1, isAsync := false, shared := [], locals := [] },
      { task := 21, priority := 3, isAsync := false, shared := [], locals := [] },
      { task := 22, priority := 2, isAsync := true, shared := [(10, .proxy)], locals := [] }],
    mutexes := [(10, 2)],
    hwHandlers := [(60, 1, 20), (61, 3, 21)],
    dispatchers := [(some 50, 2, [22])],
    pends := [(22, some 50)],
    localSpawn := [],
    freeSpawn := [22],
    sendAsserts := [110],
    syncAsserts := [],
    asyncMax := some 0,
    main := [.disableInterrupts, .setPriority 50 2, .unmask 50, .setPriority 60 1, .unmask 60, .setPriority 61 3, .unmask 61, .callInit, .writeShared 10, .enableInterrupts, .callIdle 4] }

theorem regUsed {v : Ident} (h : UsedVec regProg v) : v = 50 ∨ v = 60 ∨ v = 61 := by
  rcases h with ⟨q, t, h⟩ | ⟨q, ts, h⟩
  · simp [regProg] at h; grind
  · simp [regProg] at h; grind

theorem regTask {x : Ident} {k : Kind} {q : Nat} {args : List TaskArg} (h : TaskIs regRaw x k q args) :
    x = 4 ∧ k = .idle ∧ q = 0 ∧ args = [.shared [(10, .exclusive)]] ∨ q = 1 ∧ args = [.binds 60, .priority 1] ∨ q = 3 ∧ args = [.binds 61, .priority 3] ∨ q = 2 ∧ k = .software ∧ args = [.priority 2, .shared [(10, .exclusive)]] := by
  cases h with
  | idle hm => simp [regRaw] at hm; obtain ⟨rfl, rfl, -⟩ := hm; simp
  | hardware hm hb hp =>
    simp [regRaw] at hm
    rcases hm with ⟨rfl, rfl, -⟩ | ⟨rfl, rfl, -⟩ | ⟨rfl, rfl, -⟩ <;> simp [HasPriority] at hp hb <;> simp [hp]
  | software hm hb hp =>
    simp [regRaw] at hm
    rcases hm with ⟨rfl, rfl, -⟩ | ⟨rfl, rfl, -⟩ | ⟨rfl, rfl, -⟩ <;> simp [HasPriority] at hp hb <;> simp [hp]

/-- the hypotheses of `C91_app_not_plain_violated` are met by this application -/
example : expand exTarget 2 regRaw = .ok regProg ∧ ∃ st s0 s1 s2 s3 as0 as1 as2 tr0, MaskSystem.Start (maskSysCfg exTarget regNum regProg) exOn st ∧ MaskSystem.Exec (maskSysCfg exTarget regNum regProg) st as0 tr0 s0 ∧
    MaskSystem.Step (maskSysCfg exTarget regNum regProg) s0 (.call 51) [(51, .ok 22 5)] s1 ∧ MaskSystem.Exec (maskSysCfg exTarget regNum regProg) s1 as1 [] s2 ∧ (s2.ex 51).pc (MaskSystem.depth s0.m.stack) = .idle ∧
    MaskSystem.Exec (maskSysCfg exTarget regNum regProg) s2 as2 [] s3 ∧ .irq 61 ∈ as2 := by
  have h : expand exTarget 2 regRaw = .ok regProg := by decide +kernel
  have hi : TaskIs regRaw 4 .idle 0 [.shared [(10, .exclusive)]] := .idle (ok := true) (by decide)
  have ht : TaskIs regRaw 22 .software 2 [.priority 2, .shared [(10, .exclusive)]] := .software (as := true) (ins := []) (ok := true) (by decide) (by simp) (.inl (by decide))
  have ht' : TaskIs regRaw 20 (.hardware 60) 1 [.binds 60, .priority 1] := .hardware (as := false) (ins := []) (ok := true) (by decide) (by decide) (.inl (by decide))
  have hk : TaskIs regRaw 21 (.hardware 61) 3 [.binds 61, .priority 3] := .hardware (as := false) (ins := []) (ok := true) (by decide) (by decide) (.inl (by decide))
  refine ⟨h, C91_app_not_plain_violated h ?_ ?_ ?_ ?_ hi List.mem_cons_self List.mem_cons_self ⟨1, _, List.mem_cons_self, List.mem_cons_self⟩ rfl ht (v := 50) (.inr ⟨2, [22], by decide, by decide⟩) ht' (by decide) (.inr (by decide)) hk
    ⟨22, 2, .exclusive, ⟨_, _, _, ht, List.mem_cons_of_mem _ List.mem_cons_self, List.mem_cons_self⟩, Nat.le_refl _⟩ ?_ 5⟩
  · rintro t q r res ⟨k, args, l, hx, hl, -⟩ -
    rcases regTask hx with ⟨-, -, -, rfl⟩ | ⟨-, rfl⟩ | ⟨-, rfl⟩ | ⟨-, -, rfl⟩ <;> simp at hl
  · intro v w hv hw _ _ e
    rcases regUsed hv with rfl | rfl | rfl <;> rcases regUsed hw with rfl | rfl | rfl <;> first | rfl | (simp [regNum] at e)
  · intro v hv _
    rcases regUsed hv with rfl | rfl | rfl <;> decide
  · intro x args hx
    rcases regTask hx with ⟨-, hk, -⟩ | ⟨hq, -⟩ | ⟨hq, -⟩ | ⟨hq, -⟩
    · cases hk
    all_goals omega
  · rintro x q ac ⟨k, args, l, hx, hl, -⟩
    rcases regTask hx with ⟨-, -, rfl, -⟩ | ⟨rfl, -⟩ | ⟨rfl, rfl⟩ | ⟨rfl, -⟩
    · omega
    · omega
    · simp at hl
    · omega

end Verif.EndToEnd
