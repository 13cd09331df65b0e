import Verif.Cxx.Model
import Verif.Commands.QueryLemmas

/-! # The C++ combiner does what the Python combiner does -/

namespace Verif.Cxx

open Verif Verif.Float Verif.Multiplex Verif.Multiplex.Spec Verif.Commands

/-- A frame holds at most 64 bytes. -/
def cap (b : Bytes) : Except Halt Bytes := if 64 < b.length then .error .abort else .ok b

theorem write_eq (f b : Bytes) : write f b = cap (f ++ b) := by
  unfold write cap
  rw [List.length_append, Nat.add_comm]

theorem write_nil {f : Bytes} (h : f.length ≤ 64) : write f [] = .ok f := by
  unfold write; rw [if_neg (by simp; omega)]; simp

theorem write_write (f a b : Bytes) : (write f a >>= fun f => write f b) = write f (a ++ b) := by
  simp only [write_eq, cap, List.length_append]
  by_cases h : 64 < f.length + a.length
  · rw [if_pos h, if_pos (by omega)]; rfl
  · rw [if_neg h]
    show (if _ then _ else _) = _
    simp only [List.length_append]
    rw [List.append_assoc, Nat.add_assoc]

theorem write_bind {α : Type} (f a b : Bytes) (k : Bytes → Except Halt α) :
    (write f a >>= fun f => write f b >>= k) = (write f (a ++ b) >>= k) := by
  rw [← write_write, bind_assoc]

theorem writeInt8_eq (f : Bytes) {n : Nat} (h : n < 256) :
    writeInt f .int8 n = write f [UInt8.ofNat n] := by
  unfold writeInt
  congr 1
  simp only [Res.size, leBytes, ofSigned]
  have : ((n : Int) % (2 ^ (8 * 1))).toNat = n := by
    rw [Int.emod_eq_of_lt (by omega) (by omega)]; simp
  rw [this, Nat.mod_eq_of_lt (by omega)]

theorem writeVaruint_eq (f : Bytes) (v : Nat) : writeVaruint f v = write f (Multiplex.writeVaruint v) := by
  induction v using Nat.strong_induction_on generalizing f with
  | _ v ih =>
    unfold writeVaruint
    have hb : (v % 128 + if v / 128 ≠ 0 then 128 else 0) < 256 := by split <;> omega
    rw [writeInt8_eq f hb]
    by_cases h : v < 128
    · have h0 : v / 128 = 0 := by omega
      rw [writeVaruint_small h]
      have : v % 128 = v := by omega
      simp only [h0, this, dite_true, ne_eq, not_true_eq_false, if_false, Nat.add_zero]
      cases write f [UInt8.ofNat v] <;> rfl
    · have h0 : v / 128 ≠ 0 := by omega
      rw [writeVaruint_large (by omega)]
      simp only [h0, dite_false, ne_eq, not_false_eq_true, if_true]
      have hi : ∀ f, writeVaruint f (v / 128) = write f (Multiplex.writeVaruint (v / 128)) :=
        fun f => ih (v / 128) (by omega) f
      simp only [hi, write_write]
      rfl

theorem runLength_eq (r : Res) (rs : List (Option Res)) : runLength (some r) rs = countRun r rs := by
  induction rs with
  | nil => rfl
  | cons x xs ih => simp only [runLength, countRun, ih]

theorem commandOffset_eq (r : Res) : commandOffset r = r.commandBits := by cases r <;> rfl

theorem resolutionSize_eq (r : Res) : resolutionSize r = r.size := by cases r <;> rfl

theorem writeFraming_eq {base : Nat} (hb : BaseOk base) (f : Bytes) (r : Res) {count : Nat} (reg : Nat)
    (h : count < 256) :
    writeFraming f (base + commandOffset r) count reg = write f (header base r count reg) := by
  have h1 := base_bound hb r
  rw [commandOffset_eq]
  unfold writeFraming header
  by_cases hc : count ≤ 3
  · simp only [hc, if_true]
    rw [writeInt8_eq f (by omega)]
    simp only [writeVaruint_eq, write_write]
  · simp only [hc, if_false]
    rw [writeInt8_eq f (show base + r.commandBits < 256 by omega)]
    have : ∀ f, writeInt f .int8 (count : Int) = write f [UInt8.ofNat count] :=
      fun f => writeInt8_eq f h
    simp only [this, writeVaruint_eq, write_write]
    rfl

/-- What C++ does with a Python write of the same bytes. -/
def lift (f : Bytes) : Except Err Bytes → Except Halt Bytes
  | .ok b => write f b
  | .error _ => .error .abort

def capRun : Except Err WriteCombiner → Except Halt (Bytes × Nat)
  | .ok p => if 64 < p.buf.length then .error .abort else .ok (p.buf, p.replySize % 256)
  | .error _ => .error .abort

theorem maybeWrite_grows {p p' : WriteCombiner} {b : Bool} (h : p.maybeWrite = .ok (b, p')) :
    p.buf.length ≤ p'.buf.length := by
  unfold WriteCombiner.maybeWrite at h
  split at h
  · cases h
  · split at h
    · cases h; exact Nat.le_refl _
    · split at h
      · cases h; exact Nat.le_refl _
      · dsimp only at h
        cases hh : blockHeader p.base _ (1 + countRun _ (List.drop (p.offset + 1) p.resolutions))
            (p.startRegister + p.offset) with
        | error e => rw [hh] at h; cases h
        | ok v => rw [hh] at h; cases h; simp

theorem run_grows (ws : List (Except Err Bytes)) (p p' : WriteCombiner) (h : p.run ws = .ok p') :
    p.buf.length ≤ p'.buf.length := by
  induction ws generalizing p with
  | nil => cases h; exact Nat.le_refl _
  | cons w ws ih =>
    unfold WriteCombiner.run at h
    cases hm : p.maybeWrite with
    | error e => rw [hm] at h; cases h
    | ok bp =>
      obtain ⟨b, q⟩ := bp
      have hg := maybeWrite_grows hm
      rw [hm] at h
      cases b with
      | false => exact Nat.le_trans hg (ih q h)
      | true =>
        cases w with
        | error e => cases h
        | ok v =>
          have := ih { q with buf := q.buf ++ v } h
          simp only [List.length_append] at this
          omega

theorem capRun_long {p : WriteCombiner} (h : 64 < p.buf.length) (ws : List (Except Err Bytes)) :
    capRun (p.run ws) = .error .abort := by
  cases hr : p.run ws with
  | error e => rfl
  | ok p' =>
    have := run_grows ws p p' hr
    simp only [capRun]; rw [if_pos (by omega)]

abbrev Pair := Option Res × Except Err Bytes × (Bytes → Except Halt Bytes)

/-- Both combiners over the remaining registers. -/
theorem run_sim {base : Nat} (hb : BaseOk base) (es : List Pair) (pre : List (Option Res))
    (p : WriteCombiner) (c : Combiner)
    (hc : c = ⟨base, p.startRegister, p.resolutions, p.current.join, p.offset, p.replySize % 256⟩)
    (hbase : p.base = base) (hres : p.resolutions = pre ++ es.map (·.1)) (hoff : p.offset = pre.length)
    (hruns : RunsOk p.current (es.map (·.1))) (hlen : p.buf.length ≤ 64)
    (hw : ∀ e ∈ es, e.1.isSome → ∀ f : Bytes, f.length ≤ 64 → e.2.2 f = lift f e.2.1) :
    c.run p.buf (es.map (·.2.2)) = capRun (p.run (es.map (·.2.1))) := by
  induction es generalizing pre p c with
  | nil =>
    simp only [List.map_nil, Combiner.run, WriteCombiner.run, capRun]
    rw [if_neg (by rw [hc]; simp [hres, hoff]), if_neg (Nat.not_lt.mpr hlen), hc]
  | cons e es ih =>
    obtain ⟨x, w, w'⟩ := e
    have hw' : ∀ e ∈ es, e.1.isSome → ∀ f : Bytes, f.length ≤ 64 → e.2.2 f = lift f e.2.1 :=
      fun e he => hw e (List.mem_cons_of_mem _ he)
    have hruns' := runsOk_tail (x := x) (rest := es.map (·.1)) (by simpa using hruns)
    have hg : p.resolutions[p.offset]? = some x := by rw [hres, hoff]; simp
    have hd : p.resolutions.drop (p.offset + 1) = es.map (·.1) := by
      rw [hres, hoff]; exact drop_pre pre x _
    have hres' : p.resolutions = (pre ++ [x]) ++ es.map (·.1) := by rw [hres]; simp
    simp only [List.map_cons, Combiner.run, WriteCombiner.run]
    by_cases h1 : p.current = some x
    · have hp : p.maybeWrite = .ok (x.isSome, { p with offset := p.offset + 1 }) := by
        unfold WriteCombiner.maybeWrite
        rw [hg]; dsimp only; rw [if_pos h1]
      have hcw : c.maybeWrite p.buf = .ok (x.isSome, { c with offset := c.offset + 1 }, p.buf) := by
        unfold Combiner.maybeWrite
        rw [hc]; dsimp only; rw [hg]; dsimp only; rw [h1]; simp
      rw [hp, hcw]
      show (if x.isSome then _ else _) = capRun (if x.isSome then _ else _)
      cases x with
      | none =>
        exact ih (pre ++ [none]) { p with offset := p.offset + 1 } _ (by rw [hc]) hbase hres'
          (by simp [hoff]) (by rw [← h1] at hruns'; exact hruns') hlen hw'
      | some r =>
        simp only [Option.isSome_some, if_true]
        rw [show w' p.buf = lift p.buf w from hw (some r, w, w') (by simp) rfl p.buf hlen]
        cases w with
        | error e => rfl
        | ok b =>
          show (write p.buf b >>= fun f => _) = capRun (WriteCombiner.run _ _)
          rw [write_eq]
          unfold cap
          by_cases hl : 64 < (p.buf ++ b).length
          · rw [if_pos hl, capRun_long (by simpa using hl)]; rfl
          · rw [if_neg hl]
            exact ih (pre ++ [some r]) { p with offset := p.offset + 1, buf := p.buf ++ b } _ (by rw [hc])
              hbase hres' (by simp [hoff]) (by rw [← h1] at hruns'; exact hruns') (by simpa using hl) hw'
    · cases x with
      | none =>
        have hp : p.maybeWrite = .ok (false, { p with offset := p.offset + 1, current := some none }) := by
          unfold WriteCombiner.maybeWrite
          rw [hg]; dsimp only; rw [if_neg h1]
        have hcw : c.maybeWrite p.buf = .ok (false, { c with offset := c.offset + 1, current := none }, p.buf) := by
          unfold Combiner.maybeWrite
          rw [hc]; dsimp only; rw [hg]; dsimp only
          by_cases hj : p.current.join = none
          · rw [if_pos hj, hj]; rfl
          · rw [if_neg hj]
        rw [hp, hcw]
        exact ih (pre ++ [none]) { p with offset := p.offset + 1, current := some none } _ (by rw [hc]; rfl)
          hbase hres' (by simp [hoff]) hruns' hlen hw'
      | some r =>
        have hcount : countRun r (es.map (·.1)) < 127 := by
          simp only [List.map_cons, RunsOk] at hruns
          exact hruns.1.resolve_left h1
        set H := header base r (1 + countRun r (es.map (·.1))) (p.startRegister + p.offset) with hH
        set q : WriteCombiner := { p with
          buf := p.buf ++ H
          offset := p.offset + 1
          current := some (some r)
          replySize := p.replySize + H.length + (1 + countRun r (es.map (·.1))) * r.size } with hq
        have hp : p.maybeWrite = .ok (true, q) := by
          unfold WriteCombiner.maybeWrite
          rw [hg]; dsimp only; rw [if_neg h1, hd, hq, hbase, blockHeader_ok hb r _ (by omega)]
          rfl
        have hj : ¬ p.current.join = some r := by
          intro hj
          apply h1
          cases hpc : p.current with
          | none => rw [hpc] at hj; simp at hj
          | some y => rw [hpc] at hj; simp at hj; rw [hj]
        have hcw : c.maybeWrite p.buf = (write p.buf H >>= fun f' => .ok (true, { c with
            offset := c.offset + 1
            current := some r
            replySize := ((c.replySize + (f'.length - p.buf.length)) % 256
              + (1 + countRun r (es.map (·.1))) * r.size) % 256 }, f')) := by
          unfold Combiner.maybeWrite
          rw [hc]; dsimp only; rw [hg]; dsimp only; rw [if_neg hj, hd, runLength_eq,
            writeFraming_eq hb _ _ _ (by omega), resolutionSize_eq]
        rw [hp, hcw, write_eq]
        unfold cap
        show _ = capRun (w >>= fun bytes => WriteCombiner.run { q with buf := q.buf ++ bytes } _)
        by_cases hl : 64 < (p.buf ++ H).length
        · rw [if_pos hl]
          cases w with
          | error e => rfl
          | ok b =>
            show _ = capRun (WriteCombiner.run { q with buf := q.buf ++ b } _)
            rw [capRun_long (by simp only [hq, List.length_append] at *; omega)]
            rfl
        · rw [if_neg hl]
          show (w' (p.buf ++ H) >>= fun f => _) = _
          rw [show w' (p.buf ++ H) = lift (p.buf ++ H) w from hw (some r, w, w') (by simp) rfl _ (Nat.not_lt.mp hl)]
          cases w with
          | error e => rfl
          | ok b =>
            show (write (p.buf ++ H) b >>= fun f => _) = capRun (WriteCombiner.run { q with buf := q.buf ++ b } _)
            rw [write_eq]
            unfold cap
            by_cases hl2 : 64 < (p.buf ++ H ++ b).length
            · rw [if_pos hl2, capRun_long (by simpa [hq] using hl2)]; rfl
            · rw [if_neg hl2]
              refine ih (pre ++ [some r]) { q with buf := q.buf ++ b } _ ?_ hbase hres' (by simp [hq, hoff])
                hruns' (by simpa [hq] using hl2) hw'
              rw [hc]
              simp only [hq, Option.join_some, List.length_append, Nat.add_sub_cancel_left]
              congr 1
              omega

end Verif.Cxx
