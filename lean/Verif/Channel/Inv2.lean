import Verif.Channel.Inv

namespace Verif.Channel

variable {T : Type}

/-! ## The sender count -/

@[grind] def Pc.counted : Pc T → Bool
  | .absent | .dropW => false
  | _ => true

structure InvN (s : St T) (live : List Nat) : Prop where
  nodup : live.Nodup
  len : live.length = s.num
  mem : ∀ i, i ∈ live ↔ (s.snd i).counted = true

theorem invN_init (n : Nat) : InvN (init n : St T) [0] := by
  constructor
  · simp
  · simp [init]
  · intro i; by_cases h : i = 0 <;> simp [init, h, Pc.counted]

theorem InvN.frame {s s' : St T} {live} (h : InvN s live) (h1 : s'.num = s.num)
    (h2 : ∀ i, (s'.snd i).counted = (s.snd i).counted) : InvN s' live :=
  ⟨h.nodup, by rw [h1]; exact h.len, fun i => by rw [h2]; exact h.mem i⟩

theorem counted_set {s : St T} {i : Nat} {p : Pc T} (h : p.counted = (s.snd i).counted) (j : Nat) :
    (set s.snd i p j).counted = (s.snd j).counted := by
  by_cases hj : j = i
  · subst hj; simpa using h
  · rw [set_ne _ _ hj]

theorem invN_tr {n : Nat} {s s' : St T} {e} {live} (h : InvN s live) (hs : Tr n s s' e) : ∃ live', InvN s' live' := by
  cases hs with
  | clone i j hi hj =>
    refine ⟨j :: live, ?_, ?_, ?_⟩
    · refine List.nodup_cons.2 ⟨?_, h.nodup⟩
      rw [h.mem, hj]; simp [Pc.counted]
    · simp [h.len]
    · intro k; by_cases hk : k = j
      · subst hk; simp [Pc.counted]
      · simp [hk, set_ne, h.mem]
  | dropS i hi =>
    have hi' : i ∈ live := by rw [h.mem, hi]; rfl
    refine ⟨live.erase i, h.nodup.erase i, ?_, ?_⟩
    · rw [List.length_erase_of_mem hi', h.len]
    · intro k
      rw [h.nodup.mem_erase_iff, h.mem]
      by_cases hk : k = i
      · subst hk; simp; split <;> rfl
      · simp [hk, set_ne]
  | drop1None i v k hi hx =>
    exact ⟨live, h.frame rfl (counted_set (by rw [hi]; cases k <;> rfl))⟩
  | drop1Free i v k x hi hx hq => exact ⟨live, h.frame rfl (counted_set (by rw [hi]; cases k <;> rfl))⟩
  | drop1Grant i v k x j q l hi hx hq hl => exact ⟨live, h.frame rfl (counted_set (by rw [hi]; cases k <;> rfl))⟩
  | drop1Bad i v k x j q hi hx hq hl => exact ⟨live, h.frame rfl (counted_set (by rw [hi]; cases k <;> rfl))⟩
  | _ =>
    refine ⟨live, h.frame rfl ?_⟩
    first
      | (intro; rfl)
      | (apply counted_set; simp only [*]; rfl)

/-! ## Slot contents and absence of undefined behaviour -/

theorem length_le_of_nodup_lt : ∀ (n : Nat) (l : List Nat), l.Nodup → (∀ x ∈ l, x < n) → l.length ≤ n
  | 0, l, _, h => by
    cases l with
    | nil => simp
    | cons a l => exact absurd (h a List.mem_cons_self) (by omega)
  | n + 1, l, hnd, h => by
    have h2 := length_le_of_nodup_lt n (l.erase n) (hnd.erase n) (by
      intro x hx
      rw [hnd.mem_erase_iff] at hx
      have := h x hx.2; omega)
    have h3 := List.length_erase (a := n) (l := l)
    split at h3 <;> omega

theorem length_lt_of_fresh {n : Nat} {l : List Nat} {x : Nat} (hnd : l.Nodup) (h : ∀ y ∈ l, y < n) (hx : x < n)
    (hxl : x ∉ l) : l.length < n := by
  have := length_le_of_nodup_lt n (x :: l) (List.nodup_cons.2 ⟨hxl, hnd⟩) (by
    intro y hy; rcases List.mem_cons.1 hy with rfl | hy
    · exact hx
    · exact h y hy)
  simp at this; omega

structure InvS (s : St T) : Prop where
  nobad : s.bad = false
  cready : ∀ x, x ∈ s.ready → ∃ v, s.slots x = some v
  cwritten : ∀ i v x, s.snd i = .written v x → s.slots x = some v
  cgot : ∀ x, s.rx.unread = some x → ∃ v, s.slots x = some v
  cnone : ∀ x v, s.slots x = some v → x ∈ s.ready ∨ (∃ i v', s.snd i = .written v' x) ∨ s.rx.unread = some x

theorem invS_init (n : Nat) : InvS (init n : St T) := by
  constructor <;> simp [init, Rx.unread]
  intro i v x; split <;> simp

@[grind] def Pc.wr : Pc T → Option (T × Nat)
  | .written v x => some (v, x)
  | _ => none

theorem wr_iff {p : Pc T} {v : T} {x : Nat} : p = .written v x ↔ p.wr = some (v, x) := by
  cases p <;> simp [Pc.wr]

theorem wr_set {s : St T} {i : Nat} {p : Pc T} (h : p.wr = (s.snd i).wr) (j : Nat) :
    (set s.snd i p j).wr = (s.snd j).wr := by
  by_cases hj : j = i
  · subst hj; simpa using h
  · rw [set_ne _ _ hj]

theorem InvS.frame {s s' : St T} (h : InvS s) (h0 : s'.bad = s.bad) (h1 : s'.ready = s.ready)
    (h2 : ∀ i, (s'.snd i).wr = (s.snd i).wr) (h3 : s'.slots = s.slots) (h4 : s'.rx.unread = s.rx.unread) : InvS s' := by
  obtain ⟨g0, g1, g2, g3, g4⟩ := h
  refine ⟨h0.trans g0, by rw [h1, h3]; exact g1, ?_, by rw [h4, h3]; exact g3, ?_⟩
  · intro i v x hx; rw [wr_iff, h2, ← wr_iff] at hx; rw [h3]; exact g2 i v x hx
  · intro x v hx; rw [h3] at hx; rw [h1, h4]
    simp only [wr_iff, h2]; simp only [← wr_iff]; exact g4 x v hx

theorem invS_tr {n : Nat} {s s' : St T} {e} {own live} (hq : InvQ s) (ho : InvO n s own) (hn : InvN s live)
    (h : InvS s) (hs : Tr n s s' e) : InvS s' := by
  have hfree : ∀ x ∈ s.free, x < n := fun x hx => ((ho.free x).1 hx).1
  have hready : ∀ x ∈ s.ready, x < n := fun x hx => ((ho.ready x).1 hx).1
  cases hs with
  | dropS i hi =>
    have hi' : i ∈ live := by rw [hn.mem, hi]; rfl
    have : s.num ≠ 0 := by rw [← hn.len]; intro h0; rw [List.length_eq_zero_iff.1 h0] at hi'; cases hi'
    refine h.frame (by simp [this]) rfl (wr_set ?_) rfl rfl
    rw [hi]; split <;> rfl
  | drop1None i v k hi hx => exact h.frame rfl rfl (wr_set (by rw [hi]; cases k <;> rfl)) rfl rfl
  | drop1Free i v k x hi hx hq =>
    have hx' := (ho.sl i x).1 hx
    have hxf : x ∉ s.free := by intro hc; have := (ho.free x).1 hc; rw [hx'.2] at this; cases this.2
    have := length_lt_of_fresh ho.freeNd hfree hx'.1 hxf
    exact h.frame (by simp; omega) rfl (wr_set (by rw [hi]; cases k <;> rfl)) rfl rfl
  | drop1Grant i v k x j q l hi hx hq hl => exact h.frame rfl rfl (wr_set (by rw [hi]; cases k <;> rfl)) rfl rfl
  | drop1Bad i v k x j q hi hx hq' hl => have := hq.mem j; grind
  | rdBad m x v j q hr hq' hl => have := hq.mem j; grind
  | drop2Bad j q hr hq' hl => have := hq.mem j; grind
  | gotBad m x hr hv => have := h.cgot x; grind
  | dgotBad x hr hv => have := h.cgot x; grind
  | rdFree m x v hr hq =>
    have hx' := (ho.rx x).1 (by rw [hr]; rfl)
    have hxf : x ∉ s.free := by intro hc; have := (ho.free x).1 hc; rw [hx'.2] at this; cases this.2
    have := length_lt_of_fresh ho.freeNd hfree hx'.1 hxf
    exact h.frame (by simp; omega) rfl (fun _ => rfl) rfl (by rw [hr]; rfl)
  | hold i v x hi =>
    obtain ⟨g0, g1, g2, g3, g4⟩ := h
    have hx := (ho.snd i x).1 (by rw [hi]; rfl)
    have hr := ho.ready x
    have hrx := ho.rx x
    have hnone : s.slots x = none := by
      cases hv : s.slots x with
      | none => rfl
      | some v' =>
        rcases g4 x v' hv with h | ⟨j, w, h⟩ | h
        · grind
        · have := (ho.snd j x).1 (by rw [h]; rfl); grind
        · have : s.rx.held = some x := by grind
          grind
    have hoth : ∀ j w y, s.snd j = .written w y → y ≠ x := by
      intro j w y hj hyx
      have := (ho.snd j y).1 (by rw [hj]; rfl); grind
    refine ⟨by simp [g0, hnone], ?_, ?_, ?_, ?_⟩
    · grind
    · intro j w y; have := hoth j w y; have := g2 j w y; grind
    · intro y hy; grind
    · intro y w hy
      by_cases hyx : y = x
      · subst hyx; exact .inr (.inl ⟨i, v, by simp⟩)
      · simp only [set_ne _ _ hyx] at hy
        rcases g4 y w hy with h | ⟨j, w', h⟩ | h
        · exact .inl h
        · refine .inr (.inl ⟨j, w', ?_⟩)
          have : j ≠ i := by rintro rfl; rw [hi] at h; cases h
          simp only [set_ne _ _ this]; exact h
        · exact .inr (.inr h)
  | written i v x hi =>
    obtain ⟨g0, g1, g2, g3, g4⟩ := h
    have hx := (ho.snd i x).1 (by rw [hi]; rfl)
    have hxf : x ∉ s.ready := by intro hc; have := (ho.ready x).1 hc; rw [hx.2] at this; cases this.2
    have hlen := length_lt_of_fresh ho.readyNd hready hx.1 hxf
    have hv := g2 i v x hi
    refine ⟨by simp [g0]; omega, ?_, ?_, g3, ?_⟩
    · intro y hy
      rcases List.mem_append.1 hy with h | h
      · exact g1 y h
      · simp at h; subst h; exact ⟨v, hv⟩
    · intro j w y; have := g2 j w y; grind
    · intro y w hy
      rcases g4 y w hy with h | ⟨j, w', h⟩ | h
      · exact .inl (List.mem_append_left _ h)
      · by_cases hj : j = i
        · subst hj; rw [hi] at h; cases h; exact .inl (by simp)
        · exact .inr (.inl ⟨j, w', by simp only [set_ne _ _ hj]; exact h⟩)
      · exact .inr (.inr h)
  | tr0Take m x q hr hq' =>
    obtain ⟨g0, g1, g2, g3, g4⟩ := h
    have hun : s.rx.unread = none := by rw [hr]; rfl
    refine ⟨g0, ?_, g2, ?_, ?_⟩
    · intro y hy; exact g1 y (by rw [hq']; exact List.mem_cons_of_mem _ hy)
    · intro y hy; simp [Rx.unread] at hy; subst hy; exact g1 _ (by rw [hq']; exact List.mem_cons_self)
    · intro y w hy
      rcases g4 y w hy with h | h | h
      · rw [hq'] at h
        rcases List.mem_cons.1 h with rfl | h
        · exact .inr (.inr rfl)
        · exact .inl h
      · exact .inr (.inl h)
      · rw [hun] at h; cases h
  | rdrop1Take x q hr hq' =>
    obtain ⟨g0, g1, g2, g3, g4⟩ := h
    have hun : s.rx.unread = none := by rw [hr]; rfl
    refine ⟨g0, ?_, g2, ?_, ?_⟩
    · intro y hy; exact g1 y (by rw [hq']; exact List.mem_append_left _ hy)
    · intro y hy; simp [Rx.unread] at hy; subst hy; exact g1 _ (by rw [hq']; simp)
    · intro y w hy
      rcases g4 y w hy with h | h | h
      · rw [hq'] at h
        rcases List.mem_append.1 h with h | h
        · exact .inl h
        · simp at h; subst h; exact .inr (.inr rfl)
      · exact .inr (.inl h)
      · rw [hun] at h; cases h
  | got m x v hr hv =>
    obtain ⟨g0, g1, g2, g3, g4⟩ := h
    have hx := (ho.rx x).1 (by rw [hr]; rfl)
    have hun : s.rx.unread = some x := by rw [hr]; rfl
    refine ⟨g0, ?_, ?_, ?_, ?_⟩
    · intro y hy; have := (ho.ready y).1 hy; have : y ≠ x := by grind
      simp only [set_ne _ _ this]; exact g1 y hy
    · intro j w y hj; have := (ho.snd j y).1 (by rw [show s.snd j = _ from hj]; rfl); have : y ≠ x := by grind
      simp only [set_ne _ _ this]; exact g2 j w y hj
    · intro y hy; simp [Rx.unread] at hy
    · intro y w hy
      have hyx : y ≠ x := by rintro rfl; simp at hy
      simp only [set_ne _ _ hyx] at hy
      rcases g4 y w hy with h | h | h
      · exact .inl h
      · exact .inr (.inl h)
      · rw [hun] at h; cases h; exact absurd rfl hyx
  | dgot x v hr hv =>
    obtain ⟨g0, g1, g2, g3, g4⟩ := h
    have hx := (ho.rx x).1 (by rw [hr]; rfl)
    have hun : s.rx.unread = some x := by rw [hr]; rfl
    refine ⟨g0, ?_, ?_, ?_, ?_⟩
    · intro y hy; have := (ho.ready y).1 hy; have : y ≠ x := by grind
      simp only [set_ne _ _ this]; exact g1 y hy
    · intro j w y hj; have := (ho.snd j y).1 (by rw [show s.snd j = _ from hj]; rfl); have : y ≠ x := by grind
      simp only [set_ne _ _ this]; exact g2 j w y hj
    · intro y hy; simp [Rx.unread] at hy
    · intro y w hy
      have hyx : y ≠ x := by rintro rfl; simp at hy
      simp only [set_ne _ _ hyx] at hy
      rcases g4 y w hy with h | h | h
      · exact .inl h
      · exact .inr (.inl h)
      · rw [hun] at h; cases h; exact absurd rfl hyx
  | _ =>
    refine h.frame rfl rfl ?_ rfl ?_
    · first
        | (intro; rfl)
        | (apply wr_set; simp only [*]; rfl)
    · first | rfl | (simp only [*]; rfl) | grind

/-! ## All together -/

structure Inv (n : Nat) (s : St T) : Prop where
  q : InvQ s
  d : InvD s
  o : ∃ own, InvO n s own
  nn : ∃ live, InvN s live
  s : InvS s

theorem inv_init (n : Nat) : Inv n (init n : St T) :=
  ⟨invQ_init n, invD_init n, ⟨_, invO_init n⟩, ⟨_, invN_init n⟩, invS_init n⟩

theorem inv_tr {n : Nat} {s s' : St T} {e} (h : Inv n s) (hs : Tr n s s' e) : Inv n s' := by
  obtain ⟨own, ho⟩ := h.o
  obtain ⟨live, hl⟩ := h.nn
  exact ⟨invQ_tr h.q hs, invD_tr h.d hs, invO_tr h.q h.d ho hs, invN_tr hl hs, invS_tr h.q ho hl h.s hs⟩

theorem exec_induct {n : Nat} {P : St T → List (Ev T) → Prop}
    (hstep : ∀ s tr s' e, P s tr → Tr n s s' e → P s' (tr ++ e)) :
    ∀ (as : List (Act T)) (s : St T) (tr : List (Ev T)) (s' : St T) (es : List (Ev T)), P s tr →
      exec n s as = some (s', es) → P s' (tr ++ es)
  | [], s, tr, s', es, h, he => by cases he; simpa using h
  | a :: as, s, tr, s', es, h, he => by
    simp only [exec] at he
    split at he
    · cases he
    · rename_i s1 e hs
      split at he
      · cases he
      · rename_i s2 es' hs2
        cases he
        rw [← List.append_assoc]
        exact exec_induct hstep as s1 (tr ++ e) _ _ (hstep s tr s1 e h (trans_of_step hs)) hs2

theorem reach_induct {n : Nat} {P : St T → List (Ev T) → Prop} (hinit : P (init n) [])
    (hstep : ∀ s tr s' e, Inv n s → P s tr → Tr n s s' e → P s' (tr ++ e))
    {s : St T} {tr : List (Ev T)} (h : Reach n s tr) : Inv n s ∧ P s tr := by
  obtain ⟨as, he⟩ := h
  have := exec_induct (n := n) (P := fun s tr => Inv n s ∧ P s tr)
    (fun s tr s' e h ht => ⟨inv_tr h.1 ht, hstep s tr s' e h.1 h.2 ht⟩) as (init n) [] s tr ⟨inv_init n, hinit⟩ he
  simpa using this

theorem reach_inv {n : Nat} {s : St T} {tr : List (Ev T)} (h : Reach n s tr) : Inv n s :=
  (reach_induct (P := fun _ _ => True) trivial (fun _ _ _ _ _ _ _ => trivial) h).1

theorem reach_step {n : Nat} {s s' : St T} {tr e : List (Ev T)} {a : Act T} (h : Reach n s tr)
    (hs : step n s a = some (s', e)) : Reach n s' (tr ++ e) := by
  obtain ⟨as, he⟩ := h
  refine ⟨as ++ [a], ?_⟩
  have : ∀ (as : List (Act T)) (s0 : St T) (es : List (Ev T)), exec n s0 as = some (s, es) →
      exec n s0 (as ++ [a]) = some (s', es ++ e) := by
    intro as
    induction as with
    | nil => intro s0 es h; simp only [exec] at h; cases h; simp [exec, hs]
    | cons b as ih =>
      intro s0 es h
      simp only [exec, List.cons_append] at h ⊢
      split at h
      · cases h
      · rename_i s1 e1 hb
        split at h
        · cases h
        · rename_i s2 e2 h2
          cases h
          simp only [ih _ _ h2, List.append_assoc]
  exact this as _ _ he

end Verif.Channel
