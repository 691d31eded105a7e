import Verif.Spi.Model
import Verif.Arbiter.Props

/-! # C18 (transaction protocol) and C56 (cancelled transactions) -/

namespace Verif.Spi

variable {W EB EC : Type}

/-! ## Vocabulary -/

/-- The bus calls that carry out one operation completely. -/
def callsOf : Op W → List (Call W)
  | .read n => [.read n]
  | .write ws => [.write ws]
  | .transfer n ws => [.transfer n ws]
  | .transferInPlace ws => [.transferInPlace ws]
  | .delayNs ns => [.flush, .delay ns]

/-- The call of an operation that can fail (for a delay: the flush before it). -/
def failingCall : Op W → Call W
  | .read n => .read n
  | .write ws => .write ws
  | .transfer n ws => .transfer n ws
  | .transferInPlace ws => .transferInPlace ws
  | .delayNs _ => .flush

/-- The level the chip-select pin is left at by a sequence of (successful) pin operations. -/
def csLevel : Bool → List (Call W) → Bool
  | b, [] => b
  | _, .csLow :: cs => csLevel false cs
  | _, .csHigh :: cs => csLevel true cs
  | b, _ :: cs => csLevel b cs

/-! ## C18 -/

theorem runOps_spec (bus : Nat → Option EB) (ops : List (Op W)) : ∀ k,
    (∃ (done : List (Op W)) (o : Op W) (rest : List (Op W)) (e : EB), ops = done ++ o :: rest ∧
      runOps bus k ops = (done.flatMap callsOf ++ [failingCall o], some e) ∧
      bus (k + (done.flatMap callsOf).length) = some e) ∨
    runOps bus k ops = (ops.flatMap callsOf, none) := by
  induction ops with
  | nil => intro k; exact .inr rfl
  | cons o os ih =>
    intro k
    have hop : (∃ e, runOp bus k o = ([failingCall o], some e) ∧ bus k = some e) ∨ runOp bus k o = (callsOf o, none) := by
      cases hb : bus k with
      | some e => exact .inl ⟨e, by cases o <;> simp [runOp, hb, failingCall], rfl⟩
      | none => exact .inr (by cases o <;> simp [runOp, hb, callsOf])
    rcases hop with ⟨e, h1, h2⟩ | h1
    · exact .inl ⟨[], o, os, e, rfl, by simp [runOps, h1], by simpa using h2⟩
    · rcases ih (k + (callsOf o).length) with ⟨done, o', rest, e, h2, h3, h4⟩ | h2
      · refine .inl ⟨o :: done, o', rest, e, by simp [h2], by simp [runOps, h1, h3], ?_⟩
        simpa [Nat.add_assoc] using h4
      · exact .inr (by simp [runOps, h1, h2])

/-- **C18** If chip-select cannot be driven low, nothing else happens and that error is returned. -/
theorem C18_cs_low_failure (bus : Nat → Option EB) (e : EC) (high : Option EC) (ops : List (Op W)) :
    transaction bus (some e) high ops = ([.csLow], some (.cs e)) := rfl

/-- **C18** Otherwise the transaction drives chip-select low first; then it carries out the operations in order, completely, up to the first one that
fails; then, whether or not an operation failed, it flushes the bus and drives chip-select high. It returns the error of
the failing operation, otherwise the error of the flush, otherwise the error of the pin, otherwise success. -/
theorem C18_protocol (bus : Nat → Option EB) (high : Option EC) (ops : List (Op W)) :
    (∃ (done : List (Op W)) (o : Op W) (rest : List (Op W)) (e : EB), ops = done ++ o :: rest ∧
      transaction bus (none : Option EC) high ops =
        (.csLow :: (done.flatMap callsOf ++ [failingCall o]) ++ [.flush, .csHigh], some (.spi e)) ∧
      bus (1 + (done.flatMap callsOf).length) = some e) ∨
    ∃ r, transaction bus (none : Option EC) high ops = (.csLow :: ops.flatMap callsOf ++ [.flush, .csHigh], r) ∧
      (match bus (1 + (ops.flatMap callsOf).length), high with
        | some e, _ => r = some (.spi e)
        | none, some e => r = some (.cs e)
        | none, none => r = none) := by
  rcases runOps_spec bus ops 1 with ⟨done, o, rest, e, h1, h2, h3⟩ | h1
  · exact .inl ⟨done, o, rest, e, h1, by simp [transaction, h2], h3⟩
  · refine .inr ⟨_, by simp only [transaction, h1]; rfl, ?_⟩
    cases bus (1 + (ops.flatMap callsOf).length) with
    | some e => rfl
    | none => cases high <;> rfl

/-- **C18** A failure of an operation is never lost: if the transaction reports success, every operation was carried out completely, and
flush and pin succeeded; every call made succeeded. -/
theorem C18_ok_means_all_done (bus : Nat → Option EB) (low high : Option EC) (ops : List (Op W))
    (h : (transaction bus low high ops).2 = none) :
    low = none ∧ high = none ∧ (transaction bus low high ops).1 = .csLow :: ops.flatMap callsOf ++ [.flush, .csHigh] := by
  cases low with
  | some e => simp [transaction] at h
  | none =>
    rcases C18_protocol bus high ops with ⟨done, o, rest, e, -, h2, -⟩ | ⟨r, h2, h3⟩
    · rw [h2] at h; cases h
    · rw [h2] at h ⊢
      simp only at h; subst h
      cases hb : bus (1 + (ops.flatMap callsOf).length) with
      | some e => rw [hb] at h3; cases h3
      | none =>
        rw [hb] at h3
        cases high with
        | some e => cases h3
        | none => exact ⟨rfl, rfl, rfl⟩

theorem csLevel_calls : ∀ (cs : List (Call W)) (b : Bool), (∀ c ∈ cs, c ≠ .csLow ∧ c ≠ .csHigh) → csLevel b cs = b
  | [], b, _ => rfl
  | c :: cs, b, h => by
    have hc := h c List.mem_cons_self
    have ih := csLevel_calls cs b (fun x hx => h x (List.mem_cons_of_mem _ hx))
    cases c <;> simp_all [csLevel]

theorem csLevel_append (cs cs' : List (Call W)) : ∀ b, csLevel b (cs ++ cs') = csLevel (csLevel b cs) cs' := by
  induction cs with
  | nil => intro b; rfl
  | cons c cs ih => intro b; cases c <;> simp [csLevel, ih]

theorem no_cs (ops : List (Op W)) : ∀ c ∈ ops.flatMap callsOf, c ≠ .csLow ∧ c ≠ .csHigh := by
  intro c hc
  obtain ⟨o, -, ho⟩ := List.mem_flatMap.1 hc
  cases o <;> simp [callsOf] at ho <;> (try subst ho) <;> (try rcases ho with rfl | rfl) <;> simp

/-- **C18** A transaction that runs to its end leaves chip-select high (inactive), for every failure pattern in which the pin could be
driven low, and no call other than the last one raises it. -/
theorem C18_cs_released (bus : Nat → Option EB) (high : Option EC) (ops : List (Op W)) (b : Bool) :
    csLevel b (transaction bus (none : Option EC) high ops).1 = true ∧
    ∃ mid, (transaction bus (none : Option EC) high ops).1 = .csLow :: mid ++ [.csHigh] ∧ ∀ c ∈ mid, c ≠ .csLow ∧ c ≠ .csHigh := by
  rcases C18_protocol bus high ops with ⟨done, o, rest, e, -, h2, -⟩ | ⟨r, h2, -⟩ <;> rw [h2] <;>
    refine ⟨by rw [show ∀ l : List (Call W), l ++ [Call.flush, .csHigh] = (l ++ [.flush]) ++ [.csHigh] by simp, csLevel_append]; rfl, ?_⟩
  · refine ⟨done.flatMap callsOf ++ [failingCall o] ++ [.flush], by simp, ?_⟩
    intro c hc
    simp only [List.mem_append, List.mem_singleton] at hc
    rcases hc with (hc | rfl) | rfl
    · exact no_cs _ c hc
    · cases o <;> simp [failingCall]
    · simp
  · refine ⟨ops.flatMap callsOf ++ [.flush], by simp, ?_⟩
    intro c hc
    simp only [List.mem_append, List.mem_singleton] at hc
    rcases hc with hc | rfl
    · exact no_cs _ c hc
    · simp

/-- Non-vacuity: the second of three operations fails; the third is not attempted, the bus is flushed and chip-select raised. -/
example : transaction (fun k => if k = 2 then some "nack" else none) (none : Option String) none
      [.write [1, 2], .read 4, .delayNs 5]
    = ([.csLow, .write [1, 2], .read 4, .flush, .csHigh], some (.spi "nack")) := by decide
/-- Non-vacuity: all succeed but raising the pin fails. -/
example : transaction (fun _ => (none : Option String)) (none : Option String) (some "pin") [.write [1], .delayNs 5]
    = ([.csLow, .write [1], .flush, .delay 5, .flush, .csHigh], some (.cs "pin")) := by decide

/-! ### Transactions on the same bus do not interleave -/

/-- The entries of one transaction are contiguous in the log. -/
def Contiguous {C : Type} (log : List (Tag × C)) : Prop :=
  ∀ (p q r : Nat) (x y z : Tag × C), p < q → q < r → log[p]? = some x → log[q]? = some y → log[r]? = some z →
    x.1 = z.1 → y.1 = x.1

structure SysInv {C : Type} (s : Sys C) : Prop where
  arb : ∃ own, Arbiter.Inv s.arb own
  bound : ∀ x ∈ s.log, x.1.txn ≤ s.txn x.1.dev
  /-- entries of the current transaction of `i` exist only if `i` has, or had, the token during this transaction; and while it has
  it, they are the newest entries -/
  newest : ∀ i, s.arb.pc i = .token → ∃ k, (∀ x ∈ s.log.take k, x.1 = ⟨i, s.txn i⟩) ∧ ∀ x ∈ s.log.drop k, x.1 ≠ ⟨i, s.txn i⟩
  fresh : ∀ i, s.arb.pc i = .fut ∨ s.arb.pc i = .got → ∀ x ∈ s.log, x.1 ≠ ⟨i, s.txn i⟩
  contig : Contiguous s.log

theorem contiguous_cons {C : Type} {log : List (Tag × C)} {t : Tag} {c : C} (h : Contiguous log) (k : Nat)
    (h1 : ∀ x ∈ log.take k, x.1 = t) (h2 : ∀ x ∈ log.drop k, x.1 ≠ t) : Contiguous ((t, c) :: log) := by
  intro p q r x y z hpq hqr hx hy hz hxz
  cases p with
  | succ p =>
    cases q with
    | zero => omega
    | succ q =>
      cases r with
      | zero => omega
      | succ r =>
        simp only [List.getElem?_cons_succ] at hx hy hz
        exact h p q r x y z (by omega) (by omega) hx hy hz hxz
  | zero =>
    simp at hx; subst hx
    cases q with
    | zero => omega
    | succ q =>
      cases r with
      | zero => omega
      | succ r =>
        simp only [List.getElem?_cons_succ] at hy hz
        have hrk : r < k := by
          refine Classical.byContradiction fun hc => ?_
          refine h2 z ?_ hxz.symm
          rw [List.mem_iff_getElem?]
          refine ⟨r - k, ?_⟩
          rw [List.getElem?_drop, show k + (r - k) = r by omega]; exact hz
        refine h1 y ?_
        rw [List.mem_iff_getElem?]
        exact ⟨q, by rw [List.getElem?_take]; rw [if_pos (by omega)]; exact hy⟩

theorem sysInv_step {C : Type} {s s' : Sys C} (h : SysInv s) (hs : SysStep s s') : SysInv s' := by
  obtain ⟨⟨own, hI⟩, hb, hn, hf, hc⟩ := h
  have bump : ∀ i, (∀ x ∈ s.log, x.1.txn ≤ Arbiter.set s.txn i (s.txn i + 1) x.1.dev) := by
    intro i x hx; have := hb x hx; simp only [Arbiter.set]; split <;> simp_all <;> omega
  have new : ∀ i, ∀ x ∈ s.log, x.1 ≠ ⟨i, s.txn i + 1⟩ := by
    intro i x hx he; have := hb x hx; rw [he] at this; simp at this; omega
  cases hs with
  | begin i a' e ha =>
    refine ⟨Arbiter.inv_step hI ha, bump i, ?_, ?_, hc⟩
    · cases Arbiter.tr_of_step ha with
      | access i hp =>
        intro j hj
        by_cases hji : j = i
        · subst hji; simp at hj
        · simp only [Arbiter.set_apply, if_neg hji] at hj ⊢; exact hn j hj
    · cases Arbiter.tr_of_step ha with
      | access i hp =>
        intro j hj
        by_cases hji : j = i
        · subst hji; simpa using new j
        · simp only [Arbiter.set_apply, if_neg hji] at hj ⊢; exact hf j hj
  | tryBegin i a' e ha =>
    refine ⟨Arbiter.inv_step hI ha, bump i, ?_, ?_, hc⟩
    · intro j hj
      by_cases hji : j = i
      · subst hji; exact ⟨0, by simp, by simpa using new j⟩
      · cases Arbiter.tr_of_step ha with
        | tryOk i hp hq ht => simp only [Arbiter.set_apply, if_neg hji] at hj ⊢; exact hn j hj
        | tryFail i hp hcc => simp only [Arbiter.set_apply, if_neg hji] at hj ⊢; exact hn j hj
    · intro j hj
      by_cases hji : j = i
      · subst hji; simpa using new j
      · cases Arbiter.tr_of_step ha with
        | tryOk i hp hq ht => simp only [Arbiter.set_apply, if_neg hji] at hj ⊢; exact hf j hj
        | tryFail i hp hcc => simp only [Arbiter.set_apply, if_neg hji] at hj ⊢; exact hf j hj
  | arb a a' e hna ha =>
    refine ⟨Arbiter.inv_step hI ha, hb, ?_, ?_, hc⟩
    · intro j hj
      cases Arbiter.tr_of_step ha with
      | access i hp => exact absurd rfl (hna i).1
      | tryOk i hp hq ht => exact absurd rfl (hna i).2
      | fin i hp =>
        by_cases hji : j = i
        · subst hji; exact ⟨0, by simp, by simpa using hf j (.inr hp)⟩
        · simp only [Arbiter.set_apply, if_neg hji] at hj; exact hn j hj
      | pollStay => exact hn j hj
      | pollWait => exact hn j hj
      | tryFail => exact hn j hj
      | _ =>
        simp only [Arbiter.set_apply] at hj; split at hj
        · cases hj
        · exact hn j hj
    · intro j hj
      cases Arbiter.tr_of_step ha with
      | access i hp => exact absurd rfl (hna i).1
      | tryOk i hp hq ht => exact absurd rfl (hna i).2
      | pollFree i w hp hq ht =>
        simp only [Arbiter.set_apply] at hj; split at hj
        · rename_i h; subst h; exact hf j (.inl hp)
        · exact hf j hj
      | pollGrant i w l hp hcc hl hpop =>
        simp only [Arbiter.set_apply] at hj; split at hj
        · rename_i h; subst h; exact hf j (.inl hp)
        · exact hf j hj
      | pollStay => exact hf j hj
      | pollWait => exact hf j hj
      | tryFail => exact hf j hj
      | _ =>
        simp only [Arbiter.set_apply] at hj; split at hj
        · rcases hj with hj | hj <;> cases hj
        · exact hf j hj
  | call i c hi =>
    obtain ⟨k, h1, h2⟩ := hn i hi
    refine ⟨⟨own, hI⟩, ?_, ?_, ?_, contiguous_cons hc k h1 h2⟩
    · intro x hx; rcases List.mem_cons.1 hx with rfl | hx
      · exact Nat.le_refl _
      · exact hb x hx
    · intro j hj
      have hji : j = i := by
        have e1 := (hI.own j).2 (.inl hj)
        have e2 := (hI.own i).2 (.inl hi)
        rw [e1] at e2; cases e2; rfl
      subst hji
      refine ⟨k + 1, ?_, ?_⟩
      · intro x hx; rw [List.take_succ_cons] at hx
        rcases List.mem_cons.1 hx with rfl | hx
        · rfl
        · exact h1 x hx
      · intro x hx; rw [List.drop_succ_cons] at hx; exact h2 x hx
    · intro j hj x hx
      have hji : j ≠ i := by rintro rfl; change s.arb.pc j = .fut ∨ s.arb.pc j = .got at hj; rw [hi] at hj; simp at hj
      rcases List.mem_cons.1 hx with rfl | hx
      · intro he; simp at he; exact hji he.1.symm
      · exact hf j hj x hx

/-- **C18** Exclusive bus access: for any number of devices (SPI or I2C) sharing an arbiter, and every interleaving, the bus and pin
calls of one transaction are never interleaved with calls of another one. -/
theorem C18_transactions_do_not_interleave {C : Type} {s : Sys C} (h : SysReach s) : Contiguous s.log := by
  have : SysInv s := by
    induction h with
    | init =>
      exact ⟨⟨none, Arbiter.inv_init⟩, by simp, by simp [Arbiter.init], by simp [Arbiter.init], by intro p q r x y z; simp⟩
    | step _ hs ih => exact sysInv_step ih hs
  exact this.contig

/-- Non-vacuity: a reachable state in which two devices have completed calls. -/
example : ∃ s : Sys Nat, SysReach s ∧ s.log = [(⟨1, 1⟩, 30), (⟨0, 1⟩, 20), (⟨0, 1⟩, 10)] := by
  refine ⟨_, .step (.step (.step (.step (.step (.step .init (.tryBegin _ 0 _ _ rfl)) (.call _ 0 10 rfl)) (.call _ 0 20 rfl))
    (.arb _ (.dropTok 0) _ _ (by simp) rfl)) (.tryBegin _ 1 _ _ rfl)) (.call _ 1 30 rfl), rfl⟩

/-! ## C56: dropping a transaction future -/

/-- The full English claim of C56: a transaction that is dropped half-way does not leave chip-select asserted. -/
def CancelReleasesCs (blocking : Bool) : Prop :=
  ∀ (ops : List (Op Nat)) (cs : List (Call Nat)),
    Cancelled blocking (transaction (fun _ => (none : Option Nat)) (none : Option Nat) none ops).1 cs → csLevel true cs = true

/-- **C56** is violated by both devices: dropping the future at a suspension point leaves chip-select low (and the bus is released, so another
device can use it while this one is still selected): there is no drop guard in `spi.rs:45-79`, `128-162`. -/
theorem C56_cancel_violated : ¬ CancelReleasesCs false ∧ ¬ CancelReleasesCs true := by
  constructor
  · intro h
    have := h [.write [1]] [.csLow, .write [1]] ⟨[.csLow], .write [1], [.flush, .csHigh], rfl, rfl, rfl⟩
    revert this; decide
  · intro h
    have := h [.delayNs 1] [.csLow, .flush, .delay 1] ⟨[.csLow, .flush], .delay 1, [.flush, .csHigh], rfl, rfl, rfl⟩
    revert this; decide

/-- **C56 (part)** A blocking device can be dropped half-way only at a delay: transactions without delay operations always run to the
end, once the bus access is granted. -/
theorem C56_cancel_partial (bus : Nat → Option EB) (low high : Option EC) (ops : List (Op W))
    (hd : ∀ o ∈ ops, ∀ ns, o ≠ .delayNs ns) : ¬ ∃ cs, Cancelled true (transaction bus low high ops).1 cs := by
  have key : ∀ c ∈ (transaction bus low high ops).1, awaits true c = false := by
    intro c hc
    have hcalls : ∀ l : List (Op W), (∀ o ∈ l, o ∈ ops) → ∀ c ∈ l.flatMap callsOf, awaits true c = false := by
      intro l hl c hc
      obtain ⟨o, ho, hco⟩ := List.mem_flatMap.1 hc
      have := hd o (hl o ho)
      cases o with
      | delayNs ns => exact absurd rfl (this ns)
      | _ => simp [callsOf] at hco; subst hco; rfl
    cases low with
    | some e => simp [transaction] at hc; subst hc; rfl
    | none =>
      rcases C18_protocol bus high ops with ⟨done, o, rest, e, h1, h2, -⟩ | ⟨r, h2, -⟩ <;> rw [h2] at hc
      · simp only [List.mem_append, List.mem_cons] at hc
        simp only [List.not_mem_nil, or_false] at hc
        rcases hc with (rfl | hc | rfl) | rfl | rfl
        · rfl
        · exact hcalls done (by intro x hx; rw [h1]; exact List.mem_append_left _ hx) c hc
        · cases o <;> rfl
        · rfl
        · rfl
      · simp only [List.mem_append, List.mem_cons] at hc
        simp only [List.not_mem_nil, or_false] at hc
        rcases hc with (rfl | hc) | rfl | rfl
        · rfl
        · exact hcalls ops (fun _ h => h) c hc
        · rfl
        · rfl
  rintro ⟨cs, pre, c, post, hf, ha, -⟩
  rw [key c (by rw [hf]; simp)] at ha; cases ha

/-- Non-vacuity: a blocking transaction with three operations and no delay. -/
example : ¬ ∃ cs, Cancelled true (transaction (fun _ => (none : Option Nat)) (none : Option Nat) none
    [.write [1], .read 2, .transfer 2 [3, 4]]).1 cs := C56_cancel_partial _ _ _ _ (by simp)

end Verif.Spi
