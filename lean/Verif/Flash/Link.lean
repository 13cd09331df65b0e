import Verif.Flash.Blocks
import Verif.Flash.Image
import Verif.Stream.Props

/-! # The dialog between host and bootloader -/

namespace Verif.Flash

open Verif Spec

def NoNewline (l : Bytes) : Prop := ∀ x ∈ l, Stream.isNewline x = false

theorem NoNewline.append {a b : Bytes} (ha : NoNewline a) (hb : NoNewline b) : NoNewline (a ++ b) := by
  intro x hx
  rcases List.mem_append.mp hx with h | h
  · exact ha x h
  · exact hb x h

/-! ## Tokens -/

theorem tokenize_step (t : Bytes) (acc : Bytes) (c : UInt8) (rest : Bytes)
    (ht : ∀ x ∈ t, isDelimiter x = false) (hc : isDelimiter c = true) :
    tokenize acc (t ++ c :: rest) = (acc ++ t) :: tokenize [] rest := by
  induction t generalizing acc with
  | nil => simp [tokenize, hc]
  | cons x t ih =>
    rw [List.cons_append, tokenize, if_neg (by simp [ht x (by simp)]),
      ih _ (fun y hy => ht y (by simp [hy]))]
    simp

theorem hexDigit_plain (u : Bool) (d : Nat) (h : d < 16) :
    isDelimiter (Can.hexDigit u d) = false ∧ Stream.isNewline (Can.hexDigit u d) = false ∧
    Can.isSpace (Can.hexDigit u d) = false ∧ strSpace (Can.hexDigit u d) = false ∧
    Can.hexDigit u d ≠ 32 := by
  have : ∀ u, ∀ d < 16, isDelimiter (Can.hexDigit u d) = false ∧
      Stream.isNewline (Can.hexDigit u d) = false ∧
      Can.isSpace (Can.hexDigit u d) = false ∧ strSpace (Can.hexDigit u d) = false ∧
      Can.hexDigit u d ≠ 32 := by decide
  exact this u d h

/-- A text that consists of hex digits. -/
def Plain (l : Bytes) : Prop := ∀ x ∈ l, ∃ u d, d < 16 ∧ x = Can.hexDigit u d

theorem Plain.delim {l : Bytes} (h : Plain l) : ∀ x ∈ l, isDelimiter x = false := by
  intro x hx; obtain ⟨u, d, hd, rfl⟩ := h x hx; exact (hexDigit_plain u d hd).1
theorem Plain.newline {l : Bytes} (h : Plain l) : NoNewline l := by
  intro x hx; obtain ⟨u, d, hd, rfl⟩ := h x hx; exact (hexDigit_plain u d hd).2.1
theorem Plain.space {l : Bytes} (h : Plain l) : ∀ x ∈ l, Can.isSpace x = false := by
  intro x hx; obtain ⟨u, d, hd, rfl⟩ := h x hx; exact (hexDigit_plain u d hd).2.2.1
theorem Plain.strSpace {l : Bytes} (h : Plain l) : ∀ x ∈ l, strSpace x = false := by
  intro x hx; obtain ⟨u, d, hd, rfl⟩ := h x hx; exact (hexDigit_plain u d hd).2.2.2.1
theorem Plain.ne32 {l : Bytes} (h : Plain l) : (32 : UInt8) ∉ l := by
  intro hx; obtain ⟨u, d, hd, e⟩ := h _ hx; exact (hexDigit_plain u d hd).2.2.2.2 e.symm
theorem Plain.append {a b : Bytes} (ha : Plain a) (hb : Plain b) : Plain (a ++ b) := by
  intro x hx
  rcases List.mem_append.mp hx with h | h
  · exact ha x h
  · exact hb x h

theorem plain_hexByte (u : Bool) (b : UInt8) : Plain (Can.hexByte u b) := by
  have := b.toNat_lt
  intro x hx
  simp only [Can.hexByte, List.mem_cons, List.not_mem_nil, or_false] at hx
  rcases hx with rfl | rfl
  · exact ⟨u, _, by omega, rfl⟩
  · exact ⟨u, _, by omega, rfl⟩

theorem plain_flatMap (u : Bool) (d : Bytes) : Plain (d.flatMap (Can.hexByte u)) := by
  intro x hx
  obtain ⟨b, _, hb⟩ := List.mem_flatMap.mp hx
  exact plain_hexByte u b x hb

theorem plain_uint32Hex (v : Nat) : Plain (Can.uint32Hex v) := by
  unfold Can.uint32Hex
  exact (((plain_hexByte _ _).append (plain_hexByte _ _)).append (plain_hexByte _ _)).append
    (plain_hexByte _ _)

theorem plain_hexDigits (n : Nat) : Plain (Can.hexDigits n) := by
  obtain ⟨ds, h1, h2, _⟩ := Can.hexDigits_nybbles n
  rw [h1]
  intro x hx
  obtain ⟨d, hd, rfl⟩ := List.mem_map.mp hx
  exact ⟨false, d, h2 d hd, rfl⟩

theorem hexDigits_ne_nil (n : Nat) : Can.hexDigits n ≠ [] := by
  obtain ⟨ds, h1, _, h3, _⟩ := Can.hexDigits_nybbles n
  rw [h1]
  simpa using h3

theorem pyHex_nat (a : Int) (h : 0 ≤ a) : pyHex a = Can.hexDigits a.toNat := by
  unfold pyHex
  rw [if_neg (by omega)]
  congr 1
  omega

theorem hexToI_lower (b : UInt8) : Can.hexToI (Can.hexByte false b) = b.toNat := by
  have : ∀ b < 256, Can.hexToI (Can.hexByte false (UInt8.ofNat b)) = b := by decide +kernel
  have h := this b.toNat b.toNat_lt
  simpa using h

theorem hexPairs_dataHex (d : Bytes) : hexPairs (dataHex d) = d := by
  induction d with
  | nil => rfl
  | cons b d ih =>
    have e : dataHex (b :: d) = Can.hexDigit false (b.toNat / 16) :: Can.hexDigit false (b.toNat % 16) ::
        dataHex d := by simp [dataHex, Can.hexByte]
    have h := hexToI_lower b
    unfold Can.hexByte at h
    rw [e, hexPairs, ih, h]
    simp

theorem dataHex_length (d : Bytes) : (dataHex d).length = 2 * d.length := by
  induction d with
  | nil => rfl
  | cons b d ih =>
    simp only [dataHex, List.flatMap_cons, Can.hexByte, List.length_append, List.length_cons,
      List.length_nil] at ih ⊢
    omega

theorem hexDigits_length (n : Nat) (k : Nat) (hk : 1 ≤ k) (h : n < 16 ^ k) :
    (Can.hexDigits n).length ≤ k := by
  induction k generalizing n with
  | zero => omega
  | succ k ih =>
    unfold Can.hexDigits
    split
    · simp
    · next hn =>
      rw [List.length_append, List.length_singleton]
      have hk1 : 1 ≤ k := by
        by_contra hc
        have : k = 0 := by omega
        subst this
        omega
      have := ih (n / 16) hk1 (by rw [Nat.div_lt_iff_lt_mul (by omega)]; rwa [← Nat.pow_succ])
      omega

/-! ## Delivery of a line -/

section
variable {σ : Type} (hw : Hw σ)

theorem chunks_flatten (t : Bytes) : (chunks t).flatten = t ∧ ∀ c ∈ chunks t, c ≠ [] := by
  induction h : t.length using Nat.strong_induction_on generalizing t with
  | _ n ih =>
    unfold chunks
    split
    · next h0 => simp [List.length_eq_zero_iff.mp h0]
    · next h0 =>
      obtain ⟨h1, h2⟩ := ih (t.drop 61).length (by rw [List.length_drop]; omega) (t.drop 61) rfl
      constructor
      · rw [List.flatten_cons, h1, List.take_append_drop]
      · intro c hc
        rcases List.mem_cons.mp hc with rfl | hc
        · intro he
          have := congrArg List.length he
          rw [List.length_take] at this
          simp only [List.length_nil] at this
          omega
        · exact h2 c hc

theorem any_newline_false {l : Bytes} (h : NoNewline l) : l.any Stream.isNewline = false := by
  rw [List.any_eq_false]
  intro x hx
  simp [h x hx]

theorem frame_eq (s : Server σ) (c : Bytes) (hr : s.running = true)
    (hlen : s.command.length + c.length ≤ 256) :
    s.frame hw c = if (s.command ++ c).any Stream.isNewline then
      ({ s with command := s.command ++ c } : Server σ).runCommand hw
      else { s with command := s.command ++ c } := by
  unfold Server.frame
  rw [if_neg (by simp [hr])]
  have : ¬ (s.command.length + c.length > 256) := by omega
  simp only [this, if_false]

theorem frames_line (cs : List Bytes) (l : Bytes) (s : Server σ) (hcs : cs.flatten = l ++ [10])
    (hne : ∀ c ∈ cs, c ≠ []) (hr : s.running = true) (hn : NoNewline s.command) (hl : NoNewline l)
    (hlen : s.command.length + l.length + 1 ≤ 256) :
    cs.foldl (Server.frame hw) s = ({ s with command := s.command ++ l ++ [10] } : Server σ).runCommand hw := by
  induction cs generalizing l s with
  | nil => simp at hcs
  | cons c cs ih =>
    rw [List.flatten_cons] at hcs
    rw [List.foldl_cons]
    by_cases hf : cs = []
    · subst hf
      simp only [List.flatten_nil, List.append_nil] at hcs
      subst hcs
      rw [List.foldl_nil, frame_eq hw s _ hr
        (by simp only [List.length_append, List.length_cons, List.length_nil]; omega),
        if_pos (by simp [Stream.isNewline])]
      simp
    · have hfne : cs.flatten ≠ [] := by
        cases cs with
        | nil => exact absurd rfl hf
        | cons c' cs' =>
          have := hne c' (by simp)
          simp [this]
      obtain ⟨l', x, hl'⟩ : ∃ l' x, cs.flatten = l' ++ [x] :=
        ⟨cs.flatten.dropLast, cs.flatten.getLast hfne, (List.dropLast_append_getLast hfne).symm⟩
      rw [hl', ← List.append_assoc] at hcs
      have hx := List.append_inj_right' hcs rfl
      have hll := List.append_inj_left' hcs rfl
      simp only [List.cons.injEq, and_true] at hx
      subst hx hll
      have hnc : NoNewline c := fun x hx => hl x (List.mem_append_left _ hx)
      have hframe : s.frame hw c = { s with command := s.command ++ c } := by
        rw [frame_eq hw s c hr (by simp only [List.length_append] at hlen; omega),
          if_neg (by rw [any_newline_false (hn.append hnc)]; simp)]
      rw [hframe, ih l' { s with command := s.command ++ c } hl'
        (fun d hd => hne d (by simp [hd])) hr (hn.append hnc)
        (fun x hx => hl x (List.mem_append_right _ hx))
        (by simp only [List.length_append] at hlen ⊢; omega)]
      simp

theorem findIdx_line (l : Bytes) (h : NoNewline l) :
    (l ++ [10]).findIdx Stream.isNewline = l.length := by
  induction l with
  | nil => rfl
  | cons x l ih =>
    rw [List.cons_append, List.findIdx_cons, h x (by simp), cond_false,
      ih (fun y hy => h y (by simp [hy]))]
    rfl

/-- Nothing of an earlier line is left. -/
structure Idle (l : Link σ) : Prop where
  command : l.server.command = []
  response : l.server.response = []
  running : l.server.running = true
  rx : l.rx = [] ∨ l.rx = [10]

/-- The state after a line has been received and executed. -/
theorem send_line (l : Link σ) (hi : Idle l) (line : Bytes) (hn : NoNewline line)
    (hlen : line.length ≤ 255) :
    l.send hw line =
      { server := { command := [], response := []
                    writer := (dispatch hw l.server.writer (tokenize [] (line ++ [10]))
                      (remainingText (line ++ [10]))).2.1
                    running := (dispatch hw l.server.writer (tokenize [] (line ++ [10]))
                      (remainingText (line ++ [10]))).2.2 }
        rx := l.rx ++ (dispatch hw l.server.writer (tokenize [] (line ++ [10]))
          (remainingText (line ++ [10]))).1 } := by
  unfold Link.send
  obtain ⟨h1, h2⟩ := chunks_flatten (line ++ [10])
  rw [frames_line hw _ line l.server h1 h2 hi.running (by rw [hi.command]; intro x hx; simp at hx) hn
    (by rw [hi.command]; simp only [List.length_nil]; omega)]
  simp only [Server.runCommand, hi.command, hi.response, List.nil_append, findIdx_line line hn]
  congr 2
  rw [List.drop_of_length_le (by simp)]

/-! ## Answers -/

theorem rstrip_prefix (p t : Bytes) (c : UInt8) (hc : Can.isSpace c = false) :
    (p ++ [c]) <+: Stream.rstrip (p ++ [c] ++ t) := by
  unfold Stream.rstrip
  rw [List.reverse_append, List.dropWhile_append]
  have hd : (p ++ [c]).reverse.dropWhile Can.isSpace = (p ++ [c]).reverse := by
    rw [List.reverse_append, List.reverse_singleton, List.singleton_append, List.dropWhile_cons,
      if_neg (by simp [hc])]
  split
  · rw [hd, List.reverse_reverse]
  · rw [List.reverse_append, List.reverse_reverse]; exact List.prefix_append _ _

theorem readUntilOk_eq (rx : Bytes) :
    (Stream.readUntilOk id (⟨rx, []⟩ : Stream.St Bytes)).map (fun x => (x.1, x.2.flat id)) =
      Stream.Spec.untilOk [] [] rx := by
  have := Stream.C19_refines_byte_stream id (⟨rx, []⟩ : Stream.St Bytes) .readUntilOk
  have hf : Stream.St.flat id (⟨rx, []⟩ : Stream.St Bytes) = rx := by simp [Stream.St.flat]
  rw [hf] at this
  exact this

theorem nextLine_answer (rx line : Bytes) (hrx : rx = [] ∨ rx = [10]) (hn : NoNewline line)
    (hne : Stream.rstrip line ≠ []) :
    Stream.Spec.nextLine [] (rx ++ (line ++ [13, 10])) = some (Stream.rstrip line, [10]) := by
  have h := Stream.nextLine_line line 13 [10] [] hn (by decide)
  rw [List.nil_append, if_neg hne] at h
  rcases hrx with rfl | rfl
  · exact h
  · rw [List.singleton_append, Stream.Spec.nextLine, if_pos (Or.inl rfl), if_pos (by decide)]
    exact h

/-- What the host makes of an answer line. -/
theorem untilOk_answer (rx line : Bytes) (hrx : rx = [] ∨ rx = [10]) (hn : NoNewline line) :
    ([79, 75] <+: Stream.rstrip line →
      Stream.Spec.untilOk [] [] (rx ++ (line ++ [13, 10])) = some (.bytes [], [10])) ∧
    ([69, 82, 82] <+: Stream.rstrip line →
      Stream.Spec.untilOk [] [] (rx ++ (line ++ [13, 10])) =
        some (.commandError (Stream.rstrip line), [10])) := by
  constructor
  · intro h
    have hne : Stream.rstrip line ≠ [] := by intro e; rw [e] at h; simp at h
    rw [Stream.untilOk_line, nextLine_answer rx line hrx hn hne]
    simp only
    rw [if_pos h]
  · intro h
    have hne : Stream.rstrip line ≠ [] := by intro e; rw [e] at h; simp at h
    rw [Stream.untilOk_line, nextLine_answer rx line hrx hn hne]
    simp only
    obtain ⟨t, ht⟩ := h
    rw [← ht, if_neg (by simp), if_pos (by simp)]

/-- A command whose answer is a single line. -/
theorem command_answer (l : Link σ) (hi : Idle l) (line : Bytes) (hn : NoNewline line)
    (hlen : line.length ≤ 255) (w' : Writer σ) (ans : Bytes) (hna : NoNewline ans)
    (hd : dispatch hw l.server.writer (tokenize [] (line ++ [10])) (remainingText (line ++ [10])) =
      (ans ++ [13, 10], w', true)) :
    ([79, 75] <+: Stream.rstrip ans →
      l.command hw line = some (.bytes [], { server := { writer := w' }, rx := [10] })) ∧
    ([69, 82, 82] <+: Stream.rstrip ans →
      l.command hw line = some (.commandError (Stream.rstrip ans),
        { server := { writer := w' }, rx := [10] })) := by
  have hs := send_line hw l hi line hn hlen
  rw [hd] at hs
  simp only at hs
  have key : ∀ o, Stream.Spec.untilOk [] [] (l.rx ++ (ans ++ [13, 10])) = some (o, [10]) →
      l.command hw line = some (o, { server := { writer := w' }, rx := [10] }) := by
    intro o ho
    unfold Link.command
    simp only [hs]
    rw [← readUntilOk_eq] at ho
    cases hr : Stream.readUntilOk id (⟨l.rx ++ (ans ++ [13, 10]), []⟩ : Stream.St Bytes) with
    | none => rw [hr] at ho; simp at ho
    | some x =>
      obtain ⟨o', st⟩ := x
      rw [hr] at ho
      simp only [Option.map_some, Option.some.injEq, Prod.mk.injEq] at ho
      simp only [ho.1, ho.2]
  have := untilOk_answer l.rx ans hi.rx hna
  exact ⟨fun h => key _ (this.1 h), fun h => key _ (this.2 h)⟩

/-! ## Single commands -/

theorem idle_done (w : Writer σ) : Idle (⟨{ writer := w }, [10]⟩ : Link σ) := ⟨rfl, rfl, rfl, Or.inr rfl⟩

theorem ok_prefix (t : Bytes) : [79, 75] <+: Stream.rstrip (ascii "OK" ++ t) := by
  exact rstrip_prefix [79] t 75 (by decide)

theorem err_prefix (t : Bytes) : [69, 82, 82] <+: Stream.rstrip (ascii "ERR" ++ t) := by
  exact rstrip_prefix [69, 82] t 82 (by decide)

theorem unlock_command (l : Link σ) (hi : Idle l) :
    l.command hw (ascii "unlock") =
      some (.bytes [], { server := { writer := l.server.writer.unlock }, rx := [10] }) := by
  refine (command_answer hw l hi (ascii "unlock") (by unfold NoNewline; decide) (by decide) l.server.writer.unlock
    (ascii "OK") (by unfold NoNewline; decide) ?_).1 (by decide)
  have ht : tokenize [] (ascii "unlock" ++ [10]) = [ascii "unlock", []] := by decide
  rw [ht]
  unfold dispatch
  simp only [List.getElem?_cons_zero, Option.getD_some]
  rw [if_neg (by decide), if_neg (by decide), if_pos trivial]
  rfl

theorem lock_command (l : Link σ) (hi : Idle l) :
    (((l.server.writer.lock hw).1 = 0 ∧ l.command hw (ascii "lock") =
      some (.bytes [], { server := { writer := (l.server.writer.lock hw).2 }, rx := [10] })) ∨
     ((l.server.writer.lock hw).1 ≠ 0 ∧ ∃ m, l.command hw (ascii "lock") =
      some (.commandError m, { server := { writer := (l.server.writer.lock hw).2 }, rx := [10] }))) := by
  have ht : tokenize [] (ascii "lock" ++ [10]) = [ascii "lock", []] := by decide
  by_cases h0 : (l.server.writer.lock hw).1 = 0
  · left
    refine ⟨h0, (command_answer hw l hi (ascii "lock") (by unfold NoNewline; decide) (by decide) _
      (ascii "OK") (by unfold NoNewline; decide) ?_).1 (by decide)⟩
    rw [ht]
    unfold dispatch
    simp only [List.getElem?_cons_zero, Option.getD_some]
    rw [if_neg (by decide), if_neg (by decide), if_neg (by decide), if_pos trivial,
      if_neg (by simp [h0])]
    rfl
  · right
    refine ⟨h0, _, (command_answer hw l hi (ascii "lock") (by unfold NoNewline; decide) (by decide) _
      (ascii "ERR error locking") (by unfold NoNewline; decide) ?_).2 (by decide)⟩
    rw [ht]
    unfold dispatch
    simp only [List.getElem?_cons_zero, Option.getD_some]
    rw [if_neg (by decide), if_neg (by decide), if_neg (by decide), if_pos trivial, if_pos h0]
    rfl

/-- The line of a write command. -/
def wLine (a : Nat) (d : Bytes) : Bytes := ascii "w " ++ Can.hexDigits a ++ ascii " " ++ dataHex d

theorem wLine_tokens (a : Nat) (d : Bytes) :
    tokenize [] (wLine a d ++ [10]) = [ascii "w", Can.hexDigits a, dataHex d, []] := by
  have e : wLine a d ++ [10] = ascii "w" ++ 32 :: (Can.hexDigits a ++ 32 :: (dataHex d ++ 10 :: [])) := by
    have : ascii "w " = ascii "w" ++ [32] := by decide
    have h2 : ascii " " = [32] := by decide
    simp [wLine, this, h2]
  rw [e, tokenize_step _ _ _ _ (by decide) (by decide),
    tokenize_step _ _ _ _ (plain_hexDigits a).delim (by decide),
    tokenize_step (dataHex d) _ _ _ (plain_flatMap false d).delim (by decide)]
  rfl

theorem noNewline_ascii_w : NoNewline (ascii "w ") := by unfold NoNewline; decide

theorem wLine_noNewline (a : Nat) (d : Bytes) : NoNewline (wLine a d) := by
  unfold wLine
  refine NoNewline.append (NoNewline.append (NoNewline.append noNewline_ascii_w
    (plain_hexDigits a).newline) ?_) (plain_flatMap false d).newline
  unfold NoNewline; decide

theorem wLine_length (a : Nat) (d : Bytes) (ha : a < 2 ^ 32) (hd : d.length ≤ 32) :
    (wLine a d).length ≤ 255 := by
  have h1 := hexDigits_length a 8 (by omega) (by omega)
  have h2 := dataHex_length d
  have h3 : (ascii "w ").length = 2 := by decide
  have h4 : (ascii " ").length = 1 := by decide
  unfold wLine
  simp only [List.length_append, h3, h4, h2]
  omega

/-- The text of an error is a line that starts with `ERR`. -/
theorem writeByte_message {w w' : Writer σ} {a : Nat} {v : UInt8} {m : Bytes}
    (h : writeByte hw w a v = (some m, w')) :
    ∃ t, m = (ascii "ERR" ++ t) ++ [13, 10] ∧ NoNewline (ascii "ERR" ++ t) := by
  unfold writeByte at h
  split at h
  · simp only [Prod.mk.injEq, Option.some.injEq] at h
    exact ⟨ascii " flash is locked", by rw [← h.1]; decide, by unfold NoNewline; decide⟩
  · split at h
    · simp only [Prod.mk.injEq, Option.some.injEq] at h
      exact ⟨ascii " address not in flash", by rw [← h.1]; decide, by unfold NoNewline; decide⟩
    · split at h
      · simp only [Prod.mk.injEq, Option.some.injEq] at h
        exact ⟨ascii " address not writable", by rw [← h.1]; decide, by unfold NoNewline; decide⟩
      · simp only at h
        split at h
        · simp only [Prod.mk.injEq, Option.some.injEq] at h
          refine ⟨ascii " program error " ++ Can.uint32Hex (w.programByte hw a v).1, ?_, ?_⟩
          · rw [← h.1]
            have e1 : ascii "ERR program error " = ascii "ERR" ++ ascii " program error " := by decide
            have e2 : ascii "\r\n" = [13, 10] := by decide
            rw [e1, e2]
            simp
          · rw [← List.append_assoc]
            refine NoNewline.append ?_ (plain_uint32Hex _).newline
            unfold NoNewline; decide
        · simp at h

theorem writeBytes_message {d : Bytes} {w w' : Writer σ} {a : Nat} {m : Bytes}
    (h : writeBytes hw w a d = (some m, w')) :
    ∃ t, m = (ascii "ERR" ++ t) ++ [13, 10] ∧ NoNewline (ascii "ERR" ++ t) := by
  induction d generalizing w a with
  | nil => simp [writeBytes] at h
  | cons b d ih =>
    unfold writeBytes at h
    cases hb : writeByte hw w (a % 2 ^ 32) b with
    | mk o w1 =>
      rw [hb] at h
      cases o with
      | some m1 =>
        simp only [Prod.mk.injEq, Option.some.injEq] at h
        obtain ⟨rfl, _⟩ := h
        exact writeByte_message hw hb
      | none => exact ih h

/-- A write command: acknowledged exactly if all bytes were taken. -/
theorem write_command (l : Link σ) (hi : Idle l) (a : Nat) (d : Bytes) (ha : a < 2 ^ 32)
    (h1 : 1 ≤ d.length) (h2 : d.length ≤ 32) :
    (∃ w', writeBytes hw l.server.writer a d = (none, w') ∧
      l.command hw (wLine a d) = some (.bytes [], { server := { writer := w' }, rx := [10] })) ∨
    (∃ m w' m', writeBytes hw l.server.writer a d = (some m, w') ∧
      l.command hw (wLine a d) = some (.commandError m', { server := { writer := w' }, rx := [10] })) := by
  have hdisp : dispatch hw l.server.writer (tokenize [] (wLine a d ++ [10]))
      (remainingText (wLine a d ++ [10])) =
      ((writeFlash hw l.server.writer (Can.hexDigits a) (dataHex d)).1,
       (writeFlash hw l.server.writer (Can.hexDigits a) (dataHex d)).2, true) := by
    rw [wLine_tokens]
    unfold dispatch
    simp only [List.getElem?_cons_zero, List.getElem?_cons_succ, Option.getD_some]
    rw [if_neg (by decide), if_neg (by decide), if_neg (by decide), if_neg (by decide), if_pos trivial,
      if_neg]
    intro hc
    rcases hc with hc | hc
    · exact hexDigits_ne_nil a hc
    · have := congrArg List.length hc
      rw [dataHex_length] at this
      simp only [List.length_nil] at this
      omega
  have hwf : writeFlash hw l.server.writer (Can.hexDigits a) (dataHex d) =
      match writeBytes hw l.server.writer a d with
      | (some m, w) => (m, w)
      | (none, w) => (ascii "OK " ++ Can.uint32Hex (hw.elapsed w.hw) ++ ascii "\r\n", w) := by
    unfold writeFlash
    rw [if_neg (by rw [dataHex_length]; omega), Can.hexToI_hexDigits a ha, hexPairs_dataHex]
    rfl
  cases hb : writeBytes hw l.server.writer a d with
  | mk o w' =>
    rw [hb] at hwf
    cases o with
    | none =>
      left
      simp only at hwf
      refine ⟨w', rfl, ?_⟩
      rw [hwf] at hdisp
      have e : ascii "OK " ++ Can.uint32Hex (hw.elapsed w'.hw) ++ ascii "\r\n" =
          (ascii "OK" ++ (32 :: Can.uint32Hex (hw.elapsed w'.hw))) ++ [13, 10] := by
        have e1 : ascii "OK " = ascii "OK" ++ [32] := by decide
        have e2 : ascii "\r\n" = [13, 10] := by decide
        rw [e1, e2]; simp
      simp only [e] at hdisp
      refine (command_answer hw l hi _ (wLine_noNewline a d) (wLine_length a d ha h2) w' _ ?_ hdisp).1
        (ok_prefix _)
      refine NoNewline.append (by unfold NoNewline; decide) ?_
      intro x hx
      rcases List.mem_cons.mp hx with rfl | hx
      · decide
      · exact (plain_uint32Hex _).newline x hx
    | some m =>
      right
      simp only at hwf
      obtain ⟨t, ht, hnt⟩ := writeBytes_message hw hb
      rw [hwf] at hdisp
      simp only [ht] at hdisp
      exact ⟨m, w', _, rfl, (command_answer hw l hi _ (wLine_noNewline a d) (wLine_length a d ha h2) w' _
        hnt hdisp).2 (err_prefix t)⟩

/-! ## Verification -/

/-- The line of a read command. -/
def rLine (a n : Nat) : Bytes := ascii "r " ++ Can.hexDigits a ++ ascii " " ++ Can.hexDigits n

theorem rLine_tokens (a n : Nat) :
    tokenize [] (rLine a n ++ [10]) = [ascii "r", Can.hexDigits a, Can.hexDigits n, []] := by
  have e : rLine a n ++ [10] = ascii "r" ++ 32 :: (Can.hexDigits a ++ 32 :: (Can.hexDigits n ++ 10 :: [])) := by
    have : ascii "r " = ascii "r" ++ [32] := by decide
    have h2 : ascii " " = [32] := by decide
    simp [rLine, this, h2]
  rw [e, tokenize_step _ _ _ _ (by decide) (by decide),
    tokenize_step _ _ _ _ (plain_hexDigits a).delim (by decide),
    tokenize_step _ _ _ _ (plain_hexDigits n).delim (by decide)]
  rfl

theorem rLine_noNewline (a n : Nat) : NoNewline (rLine a n) := by
  unfold rLine
  refine NoNewline.append (NoNewline.append (NoNewline.append ?_
    (plain_hexDigits a).newline) ?_) (plain_hexDigits n).newline
  · unfold NoNewline; decide
  · unfold NoNewline; decide

theorem rLine_length (a n : Nat) (ha : a < 2 ^ 32) (hn : n ≤ 32) : (rLine a n).length ≤ 255 := by
  have h1 := hexDigits_length a 8 (by omega) (by omega)
  have h2 := hexDigits_length n 8 (by omega) (by omega)
  have h3 : (ascii "r ").length = 2 := by decide
  have h4 : (ascii " ").length = 1 := by decide
  unfold rLine
  simp only [List.length_append, h3, h4]
  omega

/-- The bytes of the memory. -/
def memBytes (m : Mem) (a n : Nat) : Bytes := (List.range n).map fun i => m ((a + i) % 2 ^ 32)

theorem rstrip_plain (l : Bytes) (t : Bytes) (h : Plain t) (ht : t ≠ []) :
    Stream.rstrip (l ++ t) = l ++ t := by
  obtain ⟨t', c, rfl⟩ : ∃ t' c, t = t' ++ [c] :=
    ⟨t.dropLast, t.getLast ht, (List.dropLast_append_getLast ht).symm⟩
  unfold Stream.rstrip
  rw [← List.append_assoc, List.reverse_append, List.reverse_singleton, List.singleton_append,
    List.dropWhile_cons, if_neg (by simp [h.space c (by simp)])]
  simp

/-- A read command gives the address and the bytes. -/
theorem read_query (l : Link σ) (hi : Idle l) (a n : Nat) (ha : a < 2 ^ 32) (h1 : 1 ≤ n) (h2 : n ≤ 32) :
    l.query hw (rLine a n) =
      some (Can.uint32Hex a ++ 32 :: (memBytes l.server.writer.mem a n).flatMap (Can.hexByte true),
        { server := { writer := l.server.writer }, rx := [10] }) := by
  have hdisp : dispatch hw l.server.writer (tokenize [] (rLine a n ++ [10]))
      (remainingText (rLine a n ++ [10])) =
      ((Can.uint32Hex a ++ 32 :: (memBytes l.server.writer.mem a n).flatMap (Can.hexByte true)) ++ [13, 10],
       l.server.writer, true) := by
    rw [rLine_tokens]
    unfold dispatch
    simp only [List.getElem?_cons_zero, List.getElem?_cons_succ, Option.getD_some]
    rw [if_neg (by decide), if_neg (by decide), if_neg (by decide), if_neg (by decide),
      if_neg (by decide), if_pos trivial, if_neg]
    · simp only [Prod.mk.injEq, and_true]
      unfold readFlash
      rw [Can.hexToI_hexDigits a ha, Can.hexToI_hexDigits n (by omega)]
      simp only
      rw [if_neg (by omega)]
      have e1 : ascii " " = [32] := by decide
      have e2 : ascii "\r\n" = [13, 10] := by decide
      rw [e1, e2]
      simp [memBytes, List.flatMap_map]
    · intro hc
      rcases hc with hc | hc
      · exact hexDigits_ne_nil a hc
      · exact hexDigits_ne_nil n hc
  have hs := send_line hw l hi (rLine a n) (rLine_noNewline a n) (rLine_length a n ha h2)
  rw [hdisp] at hs
  simp only at hs
  unfold Link.query
  simp only [hs]
  have hplain : Plain ((memBytes l.server.writer.mem a n).flatMap (Can.hexByte true)) := plain_flatMap _ _
  have hne : (memBytes l.server.writer.mem a n).flatMap (Can.hexByte true) ≠ [] := by
    obtain ⟨k, rfl⟩ : ∃ k, n = k + 1 := ⟨n - 1, by omega⟩
    unfold memBytes
    rw [List.range_succ_eq_map]
    simp [Can.hexByte]
  have hstrip : Stream.rstrip (Can.uint32Hex a ++ 32 :: (memBytes l.server.writer.mem a n).flatMap (Can.hexByte true)) =
      Can.uint32Hex a ++ 32 :: (memBytes l.server.writer.mem a n).flatMap (Can.hexByte true) := by
    have := rstrip_plain (Can.uint32Hex a ++ [32]) _ hplain hne
    simpa using this
  have hnn : NoNewline (Can.uint32Hex a ++ 32 :: (memBytes l.server.writer.mem a n).flatMap (Can.hexByte true)) := by
    refine (plain_uint32Hex a).newline.append ?_
    intro x hx
    rcases List.mem_cons.mp hx with rfl | hx
    · decide
    · exact hplain.newline x hx
  have hline := nextLine_answer l.rx _ hi.rx hnn (by rw [hstrip]; simp)
  rw [hstrip] at hline
  have hr := Stream.readline_flat id (⟨l.rx ++ ((Can.uint32Hex a ++ 32 ::
    (memBytes l.server.writer.mem a n).flatMap (Can.hexByte true)) ++ [13, 10]), []⟩ : Stream.St Bytes)
  have hflat : ∀ b : Bytes, Stream.St.flat id (⟨b, []⟩ : Stream.St Bytes) = b := by
    intro b; simp [Stream.St.flat]
  rw [hflat, hline] at hr
  cases hq : Stream.readline id (⟨l.rx ++ ((Can.uint32Hex a ++ 32 ::
    (memBytes l.server.writer.mem a n).flatMap (Can.hexByte true)) ++ [13, 10]), []⟩ : Stream.St Bytes) with
  | none => rw [hq] at hr; simp [Stream.flatten] at hr
  | some x =>
    obtain ⟨o, st⟩ := x
    rw [hq] at hr
    simp only [Stream.flatten, Option.map_some, Option.some.injEq, Prod.mk.injEq] at hr
    simp only [hr.1, hr.2]

theorem lower_hexDigit (u : Bool) (d : Nat) (h : d < 16) :
    (if 65 ≤ Can.hexDigit u d ∧ Can.hexDigit u d ≤ 90 then Can.hexDigit u d + 32 else Can.hexDigit u d) =
      Can.hexDigit false d := by
  have : ∀ u, ∀ d < 16, (if 65 ≤ Can.hexDigit u d ∧ Can.hexDigit u d ≤ 90 then Can.hexDigit u d + 32
      else Can.hexDigit u d) = Can.hexDigit false d := by decide
  exact this u d h

theorem lower_hex (d : Bytes) : lower (d.flatMap (Can.hexByte true)) = dataHex d := by
  induction d with
  | nil => rfl
  | cons b d ih =>
    have hb := b.toNat_lt
    simp only [List.flatMap_cons, lower, List.map_append, dataHex] at ih ⊢
    rw [ih]
    congr 1
    simp only [Can.hexByte, List.map_cons, List.map_nil]
    rw [lower_hexDigit true _ (by omega), lower_hexDigit true _ (by omega)]

theorem strStrip_plain (l : Bytes) (h : Plain l) : strStrip l = l := by
  unfold strStrip
  have key : ∀ l : Bytes, (∀ x ∈ l, strSpace x = false) → l.dropWhile strSpace = l := by
    intro l hl
    cases l with
    | nil => rfl
    | cons x l => rw [List.dropWhile_cons, if_neg (by simp [hl x (by simp)])]
  rw [key l h.strSpace, key l.reverse (fun x hx => h.strSpace x (by simpa using hx)), List.reverse_reverse]

theorem dataHex_injective {d e : Bytes} (h : dataHex d = dataHex e) : d = e := by
  have := congrArg hexPairs h
  rwa [hexPairs_dataHex, hexPairs_dataHex] at this

theorem pyIntHex_uint32Hex (a : Nat) (ha : a < 2 ^ 32) :
    Can.pyIntHex (Can.uint32Hex a) = some (a : Int) := by
  have hd : ∀ u, ∀ d < 16, Can.nybble (Can.hexDigit u d) = some d ∧ Can.hexDigit u d ≠ 95 ∧
      Can.isSpace (Can.hexDigit u d) = false ∧ Can.hexDigit u d ≠ 45 ∧ Can.hexDigit u d ≠ 43 ∧
      Can.hexDigit u d ≠ 120 ∧ Can.hexDigit u d ≠ 88 := by decide
  obtain ⟨d7, d6, d5, d4, d3, d2, d1, d0, hall, hval, hu⟩ : ∃ d7 d6 d5 d4 d3 d2 d1 d0 : Nat,
      (d7 < 16 ∧ d6 < 16 ∧ d5 < 16 ∧ d4 < 16 ∧ d3 < 16 ∧ d2 < 16 ∧ d1 < 16 ∧ d0 < 16) ∧
      a = ((((((d7 * 16 + d6) * 16 + d5) * 16 + d4) * 16 + d3) * 16 + d2) * 16 + d1) * 16 + d0 ∧
      Can.uint32Hex a = [d7, d6, d5, d4, d3, d2, d1, d0].map (Can.hexDigit true) := by
    refine ⟨a / 2 ^ 28, a / 2 ^ 24 % 16, a / 2 ^ 20 % 16, a / 2 ^ 16 % 16, a / 2 ^ 12 % 16,
      a / 2 ^ 8 % 16, a / 2 ^ 4 % 16, a % 16, by omega, by omega, ?_⟩
    unfold Can.uint32Hex Can.hexByte
    simp only [UInt8.toNat_ofNat', List.map_cons, List.map_nil, List.cons_append, List.nil_append]
    simp only [List.cons.injEq, and_true]
    refine ⟨congrArg _ ?_, congrArg _ ?_, congrArg _ ?_, congrArg _ ?_, congrArg _ ?_, congrArg _ ?_,
      congrArg _ ?_, congrArg _ ?_⟩ <;> omega
  rw [hu, hval]
  obtain ⟨b7, b6, b5, b4, b3, b2, b1, b0⟩ := hall
  have := Can.pyIntHex_digits (u := true) [d7, d6, d5, d4, d3, d2, d1, d0] (by
    intro d hd
    simp only [List.mem_cons, List.not_mem_nil, or_false] at hd
    rcases hd with rfl | rfl | rfl | rfl | rfl | rfl | rfl | rfl <;> assumption) (by simp)
  rw [this]
  simp

theorem verify_iff (b : Block) (m : Mem) (hb : 0 ≤ b.address) (ha : b.address < 2 ^ 32) :
    verifyBlock b (Can.uint32Hex b.address.toNat ++ 32 ::
      (memBytes m b.address.toNat b.data.length).flatMap (Can.hexByte true)) = true ↔
    memBytes m b.address.toNat b.data.length = b.data := by
  have hplain := plain_flatMap true (memBytes m b.address.toNat b.data.length)
  unfold verifyBlock
  rw [Can.splitSpace_cons _ _ (plain_uint32Hex _).ne32, Can.splitSpace_nospace _ hplain.ne32]
  simp only
  rw [pyIntHex_uint32Hex _ (by omega)]
  simp only [Bool.and_eq_true, decide_eq_true_eq]
  rw [strStrip_plain _ hplain, lower_hex]
  constructor
  · intro h; exact (dataHex_injective h.2).symm
  · intro h; exact ⟨by omega, by rw [h]⟩

end

end Verif.Flash
