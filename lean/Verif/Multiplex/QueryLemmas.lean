import Verif.Multiplex.ReplyLemmas

/-! # Lemmas about `QueryParser` -/

namespace Verif.Multiplex

open Verif Verif.Float Verif.Multiplex.Spec

theorem qblock_varuint {reg : Nat} (hreg : reg < 2 ^ 35) (data : Bytes) (count old : Nat) (r : Res) :
    QueryParser.scan.block old count r (writeVaruint reg ++ data) =
      (.item reg r, ⟨data, count - 1, reg + 1, r⟩) := by
  have h := spec_varuint_write 4 reg data (by simpa using hreg)
  obtain ⟨k, h1, h2⟩ := readVaruint_of_spec h
  unfold QueryParser.scan.block
  rw [h1]
  simp only [h2]

theorem qscan_header (reg0 : Nat) (res0 : Res) (r : Res) {count reg : Nat} (data : Bytes)
    (h0 : 0 < count) (hc : count < 128) (hreg : reg < 2 ^ 35) :
    QueryParser.scan reg0 res0 (header 0x10 r count reg ++ data) =
      (.item reg r, ⟨data, count - 1, reg + 1, r⟩) := by
  have hb : BaseOk 0x10 := Or.inr (Or.inl rfl)
  have hcb := commandBits_le r
  unfold header
  by_cases hle : count ≤ 3
  · rw [if_pos hle]
    simp only [List.cons_append, List.nil_append]
    unfold QueryParser.scan
    rw [if_neg (ofNat_ne_NOP (by omega))]
    obtain ⟨hid, hcnt⟩ := res_ofId_commandBits r 0x10 count hb hle
    have hto : (UInt8.ofNat (0x10 + r.commandBits + count)).toNat = 0x10 + r.commandBits + count := by
      simp; omega
    simp only [hto, hid, hcnt]
    rw [if_pos (by omega), if_neg (by omega)]
    exact qblock_varuint hreg data count reg0 r
  · rw [if_neg hle]
    simp only [List.cons_append, List.nil_append]
    unfold QueryParser.scan
    rw [if_neg (ofNat_ne_NOP (by omega))]
    obtain ⟨hid, hcnt⟩ := res_ofId_commandBits r 0x10 0 hb (by omega)
    simp only [Nat.add_zero] at hid hcnt
    have hto : (UInt8.ofNat (0x10 + r.commandBits)).toNat = 0x10 + r.commandBits := by
      simp; omega
    have hto2 : (UInt8.ofNat count).toNat = count := by simp; omega
    simp only [hto, hto2, hid, hcnt]
    rw [if_pos (by omega), if_pos trivial, if_neg (by omega)]
    exact qblock_varuint hreg data count reg0 r

theorem qscan_irrel (reg reg' : Nat) (res res' : Res) (data : Bytes) :
    (QueryParser.scan reg res data).1 = (QueryParser.scan reg' res' data).1 ∧
    (QueryParser.scan reg res data).2.rest = (QueryParser.scan reg' res' data).2.rest ∧
    (QueryParser.scan reg res data).2.remaining = (QueryParser.scan reg' res' data).2.remaining ∧
    ((QueryParser.scan reg res data).2.remaining ≠ 0 →
      (QueryParser.scan reg res data).2 = (QueryParser.scan reg' res' data).2) := by
  induction hn : data.length using Nat.strongRecOn generalizing data reg reg' res res' with
  | ind n ih =>
    cases data with
    | nil => simp [QueryParser.scan]
    | cons cmd rest =>
      unfold QueryParser.scan
      split
      · exact ih rest.length (by simp at hn; omega) reg reg' res res' rest rfl
      · split
        · simp only
          split
          · cases rest with
            | nil => simp
            | cons b rest' =>
              simp only
              split
              · exact ih rest'.length (by simp at hn ⊢; omega) _ _ _ _ rest' rfl
              · unfold QueryParser.scan.block
                cases readVaruint 0 rest' with
                | mk v k => cases v <;> simp
          · unfold QueryParser.scan.block
            cases readVaruint 0 rest with
            | mk v k => cases v <;> simp
        · exact ih rest.length (by simp at hn; omega) reg reg' res res' rest rfl

theorem qloop_irrel (fuel : Nat) (data : Bytes) (reg reg' : Nat) (res res' : Res) :
    QueryParser.loop fuel ⟨data, 0, reg, res⟩ = QueryParser.loop fuel ⟨data, 0, reg', res'⟩ := by
  induction fuel generalizing data reg reg' res res' with
  | zero => rfl
  | succ fuel ih =>
    unfold QueryParser.loop QueryParser.next
    by_cases hd : data = []
    · simp [hd]
    · simp only [hd, if_false, ne_eq, not_true_eq_false]
      obtain ⟨h1, h2, h3, h4⟩ := qscan_irrel reg reg' res res' data
      generalize QueryParser.scan reg res data = a at *
      generalize QueryParser.scan reg' res' data = b at *
      obtain ⟨a1, ⟨r1, m1, g1, s1⟩⟩ := a
      obtain ⟨b1, ⟨r2, m2, g2, s2⟩⟩ := b
      simp only at h1 h2 h3 h4
      subst h1 h2 h3
      have hq : QueryParser.loop fuel ⟨r1, m1, g1, s1⟩ = QueryParser.loop fuel ⟨r1, m1, g2, s2⟩ := by
        by_cases hm : m1 = 0
        · subst hm; exact ih _ _ _ _ _
        · rw [h4 hm]
      cases a1 <;> simp [hq]

/-- Add items in front of a parse result. -/
def qprepend (items : List (Option (Nat × Res))) :
    Option (Except Err (List (Option (Nat × Res)))) →
    Option (Except Err (List (Option (Nat × Res)))) :=
  Option.map (Except.map (items ++ ·))

theorem qprepend_nil (x) : qprepend [] x = x := by
  cases x with
  | none => rfl
  | some x => cases x <;> simp [qprepend, Except.map]

theorem qprepend_append (a b x) : qprepend (a ++ b) x = qprepend a (qprepend b x) := by
  cases x with
  | none => rfl
  | some x => cases x <;> simp [qprepend, Except.map]

theorem qloop_step {fuel : Nat} {p p' : QueryParser} {reg : Nat} {r : Res}
    (hnext : p.next = (.item reg r, p')) :
    QueryParser.loop (fuel + 1) p = qprepend [some (reg, r)] (QueryParser.loop fuel p') := by
  conv => lhs; unfold QueryParser.loop
  rw [hnext]
  rfl

/-- State of the query parser in front of the encoding of the remaining
entries. -/
def QAligned (prev : Option (Option Res)) (rs : List (Option Res)) (reg : Nat) (p : QueryParser) : Prop :=
  match prev with
  | some (some r) =>
    p.remaining = countRun r rs ∧ (p.remaining ≠ 0 → p.resolution = r ∧ p.register = reg)
  | _ => p.remaining = 0

/-- Entries without values. -/
def noValues (rs : List (Option Res)) : List (Option Res × Bytes) := rs.map fun r => (r, [])

@[simp] theorem noValues_fst (rs : List (Option Res)) : (noValues rs).map Prod.fst = rs := by
  simp [noValues, Function.comp_def]

theorem qloop_enc (rs : List (Option Res)) (reg : Nat) (prev : Option (Option Res))
    (tail : Bytes) (fuel : Nat) (p : QueryParser)
    (hp : p.rest = enc 0x10 reg prev (noValues rs) ++ tail)
    (hal : QAligned prev rs reg p)
    (hruns : RunsOk prev rs)
    (hreg : reg + rs.length ≤ 2 ^ 35) :
    QueryParser.loop (fuel + (wanted reg rs).length) p =
      qprepend ((wanted reg rs).map some) (QueryParser.loop fuel ⟨tail, 0, 0, .int8⟩) := by
  induction rs generalizing reg prev p with
  | nil =>
    simp only [wanted, List.map_nil, List.length_nil, qprepend_nil, Nat.add_zero]
    have h0 : p.remaining = 0 := by
      unfold QAligned at hal
      split at hal
      · simp [countRun] at hal; exact hal.1
      · exact hal
    obtain ⟨rest, remaining, register, resolution⟩ := p
    simp only at h0 hp
    subst h0
    simp [enc, noValues] at hp
    subst hp
    exact qloop_irrel _ _ _ _ _ _
  | cons x rs ih =>
    simp only [List.length_cons] at hreg
    cases x with
    | none =>
      simp only [wanted]
      refine ih (reg + 1) (some none) p hp ?_ hruns (by omega)
      unfold QAligned at hal ⊢
      split at hal
      · simp [countRun] at hal; exact hal.1
      · exact hal
    | some r =>
      simp only [wanted, List.length_cons, List.map_cons]
      rw [← Nat.add_assoc]
      have hnext : p.next = (.item reg r,
          ⟨enc 0x10 (reg + 1) (some (some r)) (noValues rs) ++ tail,
            countRun r rs, reg + 1, r⟩) := by
        by_cases hprev : prev = some (some r)
        · subst hprev
          simp only [enc, noValues, List.map_cons, if_true, List.nil_append] at hp
          simp only [QAligned, countRun, if_true] at hal
          obtain ⟨hrem, hal⟩ := hal
          obtain ⟨hres, hregister⟩ := hal (by omega)
          obtain ⟨rest, remaining, register, resolution⟩ := p
          simp only at hrem hres hregister hp
          subst hrem hres hregister
          unfold QueryParser.next
          rw [if_pos (by simp)]
          simp only [hp]
          simp [noValues]
        · simp only [enc, noValues, List.map_cons, hprev, if_false, List.append_assoc] at hp
          have hrem : p.remaining = 0 := by
            unfold QAligned at hal
            split at hal
            · next r' =>
              have : r ≠ r' := by rintro rfl; exact hprev rfl
              simp [countRun, this] at hal; exact hal.1
            · exact hal
          have hcount : countRun r rs < 127 := by
            rcases hruns.1 with h | h
            · exact absurd h hprev
            · exact h
          unfold QueryParser.next
          rw [if_neg (by simp [hrem])]
          have hhdr : ∀ c, header 0x10 r c reg ≠ [] := by
            intro c h
            unfold header at h
            split at h <;> simp at h
          rw [if_neg (by
            rw [hp]; intro h
            exact hhdr _ (List.append_eq_nil_iff.mp h).1)]
          rw [hp, qscan_header _ _ r _ (by omega) (by simpa [Function.comp_def] using (by omega)) (by omega)]
          simp [noValues, Function.comp_def]
      rw [qloop_step hnext]
      rw [ih (reg + 1) (some (some r)) _ rfl ⟨rfl, fun _ => ⟨rfl, rfl⟩⟩ hruns.2 (by omega)]
      rw [← qprepend_append]; rfl

/-! ## Termination for arbitrary input -/

theorem qscan_measure (reg : Nat) (res : Res) (data : Bytes) (hd : data ≠ []) :
    256 * (QueryParser.scan reg res data).2.rest.length
      + (QueryParser.scan reg res data).2.remaining < 256 * data.length := by
  induction hn : data.length using Nat.strongRecOn generalizing data reg res with
  | ind n ih =>
    have blk : ∀ (rest : Bytes) (count : Nat) (res : Res), count < 256 → rest.length < n →
        256 * (QueryParser.scan.block reg count res rest).2.rest.length
          + (QueryParser.scan.block reg count res rest).2.remaining < 256 * n := by
      intro rest count res hc hl
      unfold QueryParser.scan.block
      cases readVaruint 0 rest with
      | mk v k =>
        cases v with
        | none => simp; omega
        | some v => simp; omega
    cases data with
    | nil => exact absurd rfl hd
    | cons cmd rest =>
      have hn' : rest.length < n := by simp at hn; omega
      have rec' : ∀ reg res (l : Bytes), l.length < n →
          256 * (QueryParser.scan reg res l).2.rest.length
            + (QueryParser.scan reg res l).2.remaining < 256 * n := by
        intro reg res l hl
        by_cases hl0 : l = []
        · subst hl0; simp [QueryParser.scan]; omega
        · have := ih l.length hl reg res l hl0 rfl; omega
      unfold QueryParser.scan
      split
      · exact rec' _ _ _ hn'
      · split
        · simp only
          split
          · cases rest with
            | nil => simp; omega
            | cons b rest' =>
              simp only
              have hb := b.toNat_lt
              simp at hn'
              split
              · exact rec' _ _ _ (by omega)
              · exact blk _ _ _ (by omega) (by omega)
          · have hb := cmd.toNat_lt
            exact blk _ _ _ (Nat.lt_of_le_of_lt Nat.and_le_left hb) hn'
        · exact rec' _ _ _ hn'

theorem qloop_total {fuel : Nat} {p : QueryParser}
    (hf : 256 * p.rest.length + p.remaining < fuel) : ∃ r, QueryParser.loop fuel p = some r := by
  induction fuel generalizing p with
  | zero => omega
  | succ fuel ih =>
    unfold QueryParser.loop
    have step : ∀ p', p.next.2 = p' → p.next.1 ≠ .stop →
        256 * p'.rest.length + p'.remaining < fuel := by
      intro p' hp' hst
      unfold QueryParser.next at hp' hst
      split at hp'
      · subst hp'; simp; omega
      · split at hp'
        · next h0 h => simp [h, show p.remaining = 0 by simpa using h0] at hst
        · next h =>
          have := qscan_measure p.register p.resolution p.rest h
          rw [← hp']; omega
    cases hn : p.next with
    | mk o p' =>
      rw [hn] at step
      cases o with
      | stop => exact ⟨_, rfl⟩
      | err e => exact ⟨_, rfl⟩
      | pyNone =>
        obtain ⟨r, hr⟩ := ih (step p' rfl (by simp))
        exact ⟨_, by simp only [hr]; rfl⟩
      | item reg res =>
        obtain ⟨r, hr⟩ := ih (step p' rfl (by simp))
        exact ⟨_, by simp only [hr]; rfl⟩

end Verif.Multiplex
