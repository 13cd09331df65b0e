import Verif.Stream.Model
import Verif.Can.Props
import Verif.Multiplex.Props
import Verif.Multiplex.ValueProps

/-! # Properties C18, C19, C20, C51, C52 -/

namespace Verif.Stream

open Verif Verif.Multiplex

namespace Spec

/-- docs/reference.md:489-492 "client to server stream data": subframe 0x40,
channel, length, bytes. -/
def clientData (frame : Bytes) : Option (Nat × Bytes) :=
  match frame with
  | 0x40 :: rest =>
    match Multiplex.Spec.varuint 5 rest with
    | none => none
    | some (channel, rest) =>
      match Multiplex.Spec.varuint 5 rest with
      | none => none
      | some (n, rest) => if n ≤ rest.length then some (channel, rest.take n) else none
  | _ => none

/-- All text written in a history. -/
def written : List Event → Bytes
  | [] => []
  | .write d :: es => d ++ written es
  | _ :: es => written es

/-- Reading `n` bytes from a byte stream; a read always waits for at least one
byte. -/
def read (n : Nat) (s : Bytes) : Option (Bytes × Bytes) :=
  if n ≤ s.length ∧ 1 ≤ s.length then some (s.take n, s.drop n) else none

/-- The next line that is not blank, without trailing white space, and what
follows it. -/
def nextLine (acc : Bytes) : Bytes → Option (Bytes × Bytes)
  | [] => none
  | c :: s =>
    if c = 10 ∨ c = 13 then
      if rstrip acc = [] then nextLine [] s else some (rstrip acc, s)
    else nextLine (acc ++ [c]) s

/-- Collect lines until one starts with `OK` or `ERR`. -/
def untilOk (acc result : Bytes) : Bytes → Option (Out × Bytes)
  | [] => none
  | c :: s =>
    if c = 10 ∨ c = 13 then
      if rstrip acc = [] then untilOk [] result s
      else if [79, 75] <+: rstrip acc then some (.bytes result, s)
      else if [69, 82, 82] <+: rstrip acc then some (.commandError (rstrip acc), s)
      else untilOk [] (result ++ rstrip acc ++ [10]) s
    else untilOk (acc ++ [c]) result s

/-- A line feed, a four byte length and so many bytes. -/
def blob (s : Bytes) : Option (Out × Bytes) :=
  match read 5 s with
  | none => none
  | some (h, s) =>
    if h[0]? = some 10 then
      match read (leNat (h.drop 1)) s with
      | none => none
      | some (b, s) => some (.bytes b, s)
    else some (.runtimeError, s)

/-- The meaning of an operation on a plain byte stream. -/
def exec (s : Bytes) : Op → Option (Out × Bytes)
  | .read n => (read n s).map fun r => (.bytes r.1, r.2)
  | .readline => (nextLine [] s).map fun r => (.bytes r.1, r.2)
  | .readUntilOk => untilOk [] [] s
  | .readBinaryBlob => blob s

/-- A non empty line of the adapter, with its line end. -/
def adapterLine (acc : Bytes) : Bytes → Option (Bytes × Bytes)
  | [] => none
  | c :: s =>
    if c = 10 ∨ c = 13 then
      if acc = [] then adapterLine [] s else some (acc ++ [c], s)
    else adapterLine (acc ++ [c]) s

end Spec

/-! ## C18 -/

theorem written_append (a b : List Event) :
    Spec.written (a ++ b) = Spec.written a ++ Spec.written b := by
  induction a with
  | nil => rfl
  | cons e a ih => cases e <;> simp [Spec.written, ih]

/-- C18: at any time, whatever the interleaving of any number of writing and
draining tasks, the sent chunks, the chunks being sent and the unsent text are
together exactly the text written, in order. -/
theorem C18_complete_in_order (es : List Event) :
    ((WriteState.run {} es).sent.flatten ++ (WriteState.run {} es).waiting.flatten) ++
      (WriteState.run {} es).pending = Spec.written es := by
  have key : ∀ (es : List Event) (s : WriteState),
      ((WriteState.run s es).sent.flatten ++ (WriteState.run s es).waiting.flatten) ++
        (WriteState.run s es).pending =
      (s.sent.flatten ++ s.waiting.flatten ++ s.pending) ++ Spec.written es := by
    intro es
    induction es with
    | nil => intro s; simp [WriteState.run, Spec.written]
    | cons e es ih =>
      intro s
      have := ih (s.step e)
      rw [show WriteState.run s (e :: es) = WriteState.run (s.step e) es from rfl, this]
      cases e with
      | write d => simp [WriteState.step, Spec.written]
      | take =>
        simp only [WriteState.step, Spec.written]
        split
        · simp
        · rfl
      | grant =>
        simp only [WriteState.step, Spec.written]
        split
        · rfl
        · next c cs h => simp [h]
  simpa using key es {}

theorem chunk_sizes (es : List Event) (s : WriteState)
    (h : ∀ c ∈ s.sent ++ s.waiting, 1 ≤ c.length ∧ c.length ≤ 61) :
    ∀ c ∈ (s.run es).sent ++ (s.run es).waiting, 1 ≤ c.length ∧ c.length ≤ 61 := by
  induction es generalizing s with
  | nil => exact h
  | cons e es ih =>
    apply ih
    cases e with
    | write d => exact h
    | take =>
      simp only [WriteState.step]
      split
      · next hp =>
        intro c hc
        simp only [List.mem_append, List.mem_singleton] at hc h
        rcases hc with hc | hc | rfl
        · exact h c (Or.inl hc)
        · exact h c (Or.inr hc)
        · rw [List.length_take]; omega
      · exact h
    | grant =>
      simp only [WriteState.step]
      split
      · exact h
      · next c cs hw =>
        intro x hx
        apply h
        rw [hw]
        simpa using hx

theorem writeInt8_small (n : Nat) (h : n < 128) : writeInt8 n = .ok [UInt8.ofNat n] := by
  have : ∀ n < 128, writeInt8 n = .ok [UInt8.ofNat n] := by decide +kernel
  exact this n h

theorem varuint_small (n : Nat) (h : n < 128) (rest : Bytes) :
    Multiplex.Spec.varuint 5 (UInt8.ofNat n :: rest) = some (n, rest) := by
  have h1 : (UInt8.ofNat n).toNat = n := by
    rw [UInt8.toNat_ofNat']; omega
  rw [Multiplex.Spec.varuint, h1, if_pos h]

/-- C18: every chunk goes out as one frame of at most 64 bytes which a receiver
decodes to exactly this chunk. -/
theorem C18_frames (es : List Event) (channel : Nat) (hc : channel < 128) (chunk : Bytes)
    (h : chunk ∈ (WriteState.run {} es).sent) :
    ∃ f, makeDiagnosticWrite chunk channel = .ok f ∧ f.length ≤ 64 ∧
      Spec.clientData f = some (channel, chunk) := by
  have hl := chunk_sizes es {} (by simp) chunk (by simp [h])
  refine ⟨0x40 :: UInt8.ofNat channel :: UInt8.ofNat chunk.length :: chunk, ?_, ?_, ?_⟩
  · unfold makeDiagnosticWrite
    rw [if_neg (by omega), writeInt8_small 0x40 (by omega), writeInt8_small channel hc,
      writeInt8_small chunk.length (by omega)]
    rfl
  · simp; omega
  · simp only [Spec.clientData]
    rw [varuint_small channel hc]
    simp only
    rw [varuint_small chunk.length (by omega)]
    simp

/-- C18: a write is refused exactly when its frame would not fit 64 bytes. -/
theorem C18_write_limit (data : Bytes) (channel : Nat) (hc : channel < 128) :
    (data.length + 3 ≤ 64 → ∃ f, makeDiagnosticWrite data channel = .ok f ∧
      f.length = data.length + 3 ∧ Spec.clientData f = some (channel, data)) ∧
    (64 < data.length + 3 → makeDiagnosticWrite data channel = .error .assertionError) := by
  constructor
  · intro h
    refine ⟨0x40 :: UInt8.ofNat channel :: UInt8.ofNat data.length :: data, ?_, by simp, ?_⟩
    · unfold makeDiagnosticWrite
      rw [if_neg (by omega), writeInt8_small 0x40 (by omega), writeInt8_small channel hc,
        writeInt8_small data.length (by omega)]
      rfl
    · simp only [Spec.clientData]
      rw [varuint_small channel hc]
      simp only
      rw [varuint_small data.length (by omega)]
      simp
  · intro h
    unfold makeDiagnosticWrite
    rw [if_pos (by omega)]

/-- C18: draining sends everything that was written before, when no other task
interferes. -/
theorem C18_drain (es : List Event) (n : Nat)
    (hw : (WriteState.run {} es).waiting = [])
    (hn : (WriteState.run {} es).pending.length ≤ 61 * n) :
    (WriteState.run {} (es ++ drainEvents n)).sent.flatten = Spec.written es := by
  have key : ∀ (n : Nat) (s : WriteState), s.waiting = [] → s.pending.length ≤ 61 * n →
      (s.run (drainEvents n)).sent.flatten = s.sent.flatten ++ s.pending := by
    intro n
    induction n with
    | zero =>
      intro s _ h
      have : s.pending = [] := by cases hp : s.pending <;> simp_all
      simp [drainEvents, WriteState.run, this]
    | succ n ih =>
      intro s hw hl
      have e : s.run (drainEvents (n + 1)) = ((s.step .take).step .grant).run (drainEvents n) := rfl
      rw [e]
      by_cases hp : 0 < s.pending.length
      · have e2 : (s.step .take).step .grant =
            { pending := s.pending.drop 61, waiting := [], sent := s.sent ++ [s.pending.take 61] } := by
          simp [WriteState.step, hp, hw]
        rw [e2, ih _ rfl (by simp; omega)]
        simp
      · have e2 : (s.step .take).step .grant = s := by
          simp only [WriteState.step, if_neg hp, hw]
        rw [e2]
        exact ih s hw (by omega)
  have h1 := key n _ hw hn
  have h2 := C18_complete_in_order es
  rw [hw] at h2
  simp only [List.flatten_nil, List.append_nil] at h2
  rw [show WriteState.run {} (es ++ drainEvents n) = WriteState.run (WriteState.run {} es) (drainEvents n) by
    simp [WriteState.run, List.foldl_append], h1, h2]

/-- A channel that does not fit in a signed byte raises. -/
theorem C18_channel_range (data : Bytes) (channel : Nat) (hc : 128 ≤ channel)
    (hl : data.length ≤ 61) : ∃ e, makeDiagnosticWrite data channel = .error e := by
  unfold makeDiagnosticWrite
  rw [if_neg (by omega), writeInt8_small 0x40 (by omega)]
  have : writeInt8 channel = .error .structError := by
    unfold writeInt8 packInt
    rw [if_neg]
    simp only [Res.size]
    push_cast
    omega
  simp [this]

/-- Two tasks write and drain at the same time. -/
example : (WriteState.run {} [.write [1, 2], .take, .write [3], .take, .grant, .grant]).sent =
    [[1, 2], [3]] := by decide
example : (WriteState.run {} ([.write (List.replicate 100 7)] ++ drainEvents 2)).sent.map List.length =
    [61, 39] := by decide

/-! ## C20 -/

/-- C20: a frame yields `payload` exactly when it is a server data subframe of
this channel, with a length that fits, followed by the payload and anything. -/
theorem C20_accepted_iff (data : Bytes) (channel : Nat) (payload : Bytes) :
    parseDiagnosticData data channel = some payload ↔
      ∃ (c : UInt8) (body rest : Bytes), data = 0x41 :: c :: body ∧ c.toNat = channel ∧
        Multiplex.Spec.varuint 5 body = some (payload.length, payload ++ rest) := by
  constructor
  · intro h
    unfold parseDiagnosticData at h
    split at h
    · simp at h
    · next hlen =>
      split at h
      · simp at h
      · next h0 =>
        split at h
        · simp at h
        · next h1 =>
          match data, hlen with
          | a :: c :: body, hlen =>
            simp only [List.getElem?_cons_zero, List.getElem?_cons_succ, Option.map_some,
              ne_eq, not_not, Option.some.injEq] at h0 h1
            subst h0
            have hr := readVaruint_eq 2 (0x41 :: c :: body)
            have hdrop : (0x41 :: c :: body).drop 2 = body := rfl
            rw [hdrop] at hr
            rw [hr] at h
            cases hv : Multiplex.Spec.varuint 5 body with
            | none => rw [hv] at h; simp at h
            | some p =>
              obtain ⟨v, tail⟩ := p
              rw [hv] at h
              simp only at h
              obtain ⟨_, used, hu, _⟩ := spec_varuint_some hv
              have hl := congrArg List.length hu
              rw [List.length_append] at hl
              simp only [List.length_cons] at h
              have hoff : body.length + 1 + 1 - tail.length = used.length + 2 := by omega
              rw [hoff] at h
              have hd2 : (0x41 :: c :: body).drop (used.length + 2) = tail := by
                rw [hu, ← List.cons_append, ← List.cons_append,
                  show used.length + 2 = (0x41 :: c :: used).length by simp, List.drop_left]
              rw [hd2] at h
              split at h
              · simp at h
              · next hgt =>
                simp only [Option.some.injEq] at h
                subst h
                refine ⟨c, body, tail.drop v, rfl, h1, ?_⟩
                rw [hv, List.take_append_drop, List.length_take]
                have : v ≤ tail.length := by omega
                rw [Nat.min_eq_left this]
          | [], hlen => simp at hlen
          | [_], hlen => simp at hlen
  · rintro ⟨c, body, rest, rfl, hc, hv⟩
    obtain ⟨_, used, hu, hpos, _⟩ := spec_varuint_some hv
    have hl := congrArg List.length hu
    rw [List.length_append, List.length_append] at hl
    unfold parseDiagnosticData
    rw [if_neg (by simp; omega), if_neg (by simp), if_neg (by simp [hc])]
    have hr := readVaruint_eq 2 (0x41 :: c :: body)
    have hdrop : (0x41 :: c :: body).drop 2 = body := rfl
    rw [hdrop, hv] at hr
    rw [hr]
    simp only [List.length_cons, List.length_append]
    have hoff : body.length + 1 + 1 - (payload.length + rest.length) = used.length + 2 := by omega
    rw [hoff, if_neg (by omega)]
    have hd2 : (0x41 :: c :: body).drop (used.length + 2) = payload ++ rest := by
      rw [hu, ← List.cons_append, ← List.cons_append,
        show used.length + 2 = (0x41 :: c :: used).length by simp, List.drop_left]
    rw [hd2]; simp

/-- C20: a data frame of the controller, with any padding, gives back its
payload on its own channel and nothing on every other one. -/
theorem C20_round_trip (channel other : Nat) (payload padding : Bytes) (hc : channel < 128)
    (hl : payload.length < 128) :
    parseDiagnosticData (0x41 :: UInt8.ofNat channel :: UInt8.ofNat payload.length ::
      (payload ++ padding)) other = if other = channel then some payload else none := by
  have hcn : (UInt8.ofNat channel).toNat = channel := by rw [UInt8.toNat_ofNat']; omega
  split
  · next h =>
    subst h
    rw [C20_accepted_iff]
    exact ⟨_, _, padding, rfl, hcn, varuint_small _ hl _⟩
  · next h =>
    cases hp : parseDiagnosticData (0x41 :: UInt8.ofNat channel :: UInt8.ofNat payload.length ::
      (payload ++ padding)) other with
    | none => rfl
    | some p =>
      obtain ⟨c, body, rest, h1, h2, _⟩ := (C20_accepted_iff _ _ _).mp hp
      simp only [List.cons.injEq] at h1
      rw [← h1.2.1, hcn] at h2
      exact absurd h2.symm h

/-- C20: a read request names the channel and the size it wants, and announces
exactly the size of a full reply (`0x41`, channel, size, data). -/
theorem C20_read_request (maxLength channel : Nat) (hc : channel < 128) (hl : maxLength < 128)
    (payload : Bytes) (hp : payload.length = maxLength) :
    ∃ f, makeDiagnosticRead maxLength channel =
        .ok (f, (0x41 :: UInt8.ofNat channel :: UInt8.ofNat payload.length :: payload).length) ∧
      f = [0x42, UInt8.ofNat channel, UInt8.ofNat maxLength] ∧
      parseDiagnosticData (0x41 :: UInt8.ofNat channel :: UInt8.ofNat payload.length :: payload)
        channel = some payload := by
  refine ⟨_, ?_, rfl, ?_⟩
  · unfold makeDiagnosticRead
    rw [writeInt8_small 0x42 (by omega), writeInt8_small channel hc, writeInt8_small maxLength hl]
    simp only [List.length_cons, hp]
    rw [show 3 + maxLength = maxLength + 1 + 1 + 1 by omega]
    rfl
  · have := C20_round_trip channel channel payload [] hc (by omega)
    rw [List.append_nil, if_pos rfl] at this
    exact this

example : makeDiagnosticRead 48 1 = .ok ([0x42, 1, 48], 51) := by decide

/-- C20: register replies and client frames are never taken for data. -/
theorem C20_other_frames (b : UInt8) (rest : Bytes) (channel : Nat) (h : b ≠ 0x41) :
    parseDiagnosticData (b :: rest) channel = none := by
  cases hp : parseDiagnosticData (b :: rest) channel with
  | none => rfl
  | some p =>
    obtain ⟨c, body, r, h1, _⟩ := (C20_accepted_iff _ _ _).mp hp
    simp only [List.cons.injEq] at h1
    exact absurd h1.1 h

example : parseDiagnosticData [0x41, 1, 2, 79, 75, 0x50, 0x50] 1 = some [79, 75] := by decide
example : parseDiagnosticData [0x41, 1, 5, 79, 75] 1 = none := by decide

/-! ## C19 -/

section
variable {α : Type} (join : α → Bytes)

theorem fill_spec (stop : Bytes → Bool) (mono : ∀ b x, stop b = true → stop (b ++ x) = true)
    (buf : Bytes) (ps : List α) :
    (fill join stop buf ps = none ∧ stop (buf ++ ps.flatMap join) = false) ∨
    (∃ s, fill join stop buf ps = some s ∧ s.flat join = buf ++ ps.flatMap join ∧
      stop s.buf = true ∧ stop (buf ++ ps.flatMap join) = true) := by
  induction ps generalizing buf with
  | nil =>
    unfold fill
    cases h : stop buf
    · left; simp [h]
    · right; exact ⟨_, rfl, by simp [St.flat], h, by simpa using h⟩
  | cons p ps ih =>
    unfold fill
    cases h : stop buf
    · simp only [Bool.false_eq_true, if_false]
      have := ih (buf ++ join p)
      simpa [List.flatMap_cons, List.append_assoc] using this
    · right; exact ⟨_, rfl, by simp [St.flat], h, mono _ _ h⟩

/-- Results with the state replaced by the bytes still available. -/
def flatten {β : Type} (r : Option (β × St α)) : Option (β × Bytes) :=
  r.map fun x => (x.1, x.2.flat join)

theorem read_flat (n : Nat) (s : St α) :
    flatten join (read join n s) = Spec.read n (s.flat join) := by
  unfold read Spec.read
  have hs : s.flat join = s.buf ++ s.polls.flatMap join := rfl
  have hstop : ∀ b : Bytes, (!(decide (b.length < n) || decide (b.length = 0))) = true ↔
      n ≤ b.length ∧ 1 ≤ b.length := by
    intro b
    simp only [Bool.not_eq_true', Bool.or_eq_false_iff, decide_eq_false_iff_not]
    omega
  rcases fill_spec join (fun b => !(decide (b.length < n) || decide (b.length = 0)))
    (by intro b x h; rw [hstop] at h ⊢; rw [List.length_append]; omega) s.buf s.polls with
    ⟨h1, h2⟩ | ⟨s', h1, h2, h3, h4⟩
  · rw [h1, if_neg]
    · rfl
    · rw [hs, ← hstop]
      change (!_) = false at h2
      rw [h2]; simp
  · rw [h1]
    replace h3 := (hstop _).mp h3
    have hle : n ≤ s'.buf.length := h3.1
    have hfl : s.flat join = s'.buf ++ s'.polls.flatMap join := by rw [hs, ← h2]; rfl
    rw [hfl, if_pos]
    · simp only [flatten, Option.map_some, Option.some.injEq, Prod.mk.injEq]
      exact ⟨by rw [List.take_append_of_le_length hle],
        by rw [List.drop_append_of_le_length hle]; rfl⟩
    · rw [List.length_append]
      omega

theorem any_newline_split {b : Bytes} (h : b.any isNewline = true) :
    ∃ (l : Bytes) (c : UInt8) (r : Bytes), b = l ++ c :: r ∧ (∀ x ∈ l, isNewline x = false) ∧
      isNewline c = true ∧ b.findIdx isNewline = l.length := by
  induction b with
  | nil => simp at h
  | cons x b ih =>
    cases hx : isNewline x
    · simp only [List.any_cons, hx, Bool.false_or] at h
      obtain ⟨l, c, r, h1, h2, h3, h4⟩ := ih h
      refine ⟨x :: l, c, r, by simp [h1], ?_, h3, ?_⟩
      · intro y hy
        rcases List.mem_cons.mp hy with rfl | hy
        · exact hx
        · exact h2 y hy
      · rw [List.findIdx_cons, hx, cond_false, h4]; rfl
    · exact ⟨[], x, b, rfl, by simp, hx, by rw [List.findIdx_cons, hx]; rfl⟩

theorem no_newline {b : Bytes} (h : b.any isNewline = false) : ∀ x ∈ b, isNewline x = false := by
  intro x hx
  rw [List.any_eq_false] at h
  simpa using h x hx

/-- One line, in terms of the available bytes. -/
theorem line_flat (s : St α) :
    (readMaybeEmptyLine join s = none ∧ ∀ x ∈ s.flat join, isNewline x = false) ∨
    (∃ l c s', readMaybeEmptyLine join s = some (l ++ [c], s') ∧ (∀ x ∈ l, isNewline x = false) ∧
      isNewline c = true ∧ s.flat join = l ++ c :: s'.flat join) := by
  have hs : s.flat join = s.buf ++ s.polls.flatMap join := rfl
  unfold readMaybeEmptyLine
  rcases fill_spec join (fun b => b.any isNewline)
    (by intro b x h; rw [List.any_append, h, Bool.true_or]) s.buf s.polls with
    ⟨h1, h2⟩ | ⟨s', h1, h2, h3, h4⟩
  · left
    rw [h1]
    exact ⟨rfl, by rw [hs]; exact no_newline h2⟩
  · right
    rw [h1]
    obtain ⟨l, c, r, e1, e2, e3, e4⟩ := any_newline_split h3
    refine ⟨l, c, ⟨r, s'.polls⟩, ?_, e2, e3, ?_⟩
    · simp only [e4]
      rw [e1, show l ++ c :: r = (l ++ [c]) ++ r by simp,
        show l.length + 1 = (l ++ [c]).length by simp, List.take_left, List.drop_left]
    · rw [hs, ← h2]
      simp [St.flat, e1]

theorem isNewline_iff (c : UInt8) : isNewline c = true ↔ c = 10 ∨ c = 13 := by
  simp [isNewline]

theorem isNewline_false (c : UInt8) (h : isNewline c = false) : ¬ (c = 10 ∨ c = 13) := by
  rw [← isNewline_iff]; simp [h]

theorem rstrip_newline (l : Bytes) (c : UInt8) (h : isNewline c = true) :
    rstrip (l ++ [c]) = rstrip l := by
  unfold rstrip
  rw [List.reverse_append, List.reverse_singleton, List.singleton_append, List.dropWhile_cons]
  have : Can.isSpace c = true := by
    rcases (isNewline_iff c).mp h with rfl | rfl <;> decide
  rw [if_pos this]

theorem nextLine_line (l : Bytes) (c : UInt8) (r acc : Bytes) (hl : ∀ x ∈ l, isNewline x = false)
    (hc : isNewline c = true) :
    Spec.nextLine acc (l ++ c :: r) =
      if rstrip (acc ++ l) = [] then Spec.nextLine [] r else some (rstrip (acc ++ l), r) := by
  induction l generalizing acc with
  | nil =>
    rw [List.nil_append, Spec.nextLine, if_pos ((isNewline_iff c).mp hc), List.append_nil]
  | cons x l ih =>
    rw [List.cons_append, Spec.nextLine, if_neg (isNewline_false x (hl x (by simp))),
      ih (acc ++ [x]) (fun y hy => hl y (by simp [hy]))]
    simp

theorem nextLine_none (l acc : Bytes) (hl : ∀ x ∈ l, isNewline x = false) :
    Spec.nextLine acc l = none := by
  induction l generalizing acc with
  | nil => rfl
  | cons x l ih =>
    rw [Spec.nextLine, if_neg (isNewline_false x (hl x (by simp))),
      ih _ (fun y hy => hl y (by simp [hy]))]

theorem readlineLoop_flat (n : Nat) (s : St α) (h : (s.flat join).length < n) :
    flatten join (readlineLoop join n s) = Spec.nextLine [] (s.flat join) := by
  induction n generalizing s with
  | zero => omega
  | succ n ih =>
    unfold readlineLoop
    rcases line_flat join s with ⟨h1, h2⟩ | ⟨l, c, s', h1, h2, h3, h4⟩
    · rw [h1, nextLine_none _ _ h2]; rfl
    · rw [h1]
      simp only
      rw [rstrip_newline l c h3, h4, nextLine_line l c _ [] h2 h3, List.nil_append]
      by_cases he : rstrip l = []
      · rw [if_neg (by simp [he]), if_pos he]
        apply ih
        have := congrArg List.length h4
        simp at this
        omega
      · rw [if_pos (List.length_pos_iff.mpr he), if_neg he]
        rfl

theorem readline_flat (s : St α) :
    flatten join (readline join s) = Spec.nextLine [] (s.flat join) :=
  readlineLoop_flat join _ s (Nat.lt_succ_self _)

theorem nextLine_shorter {acc s l r : Bytes} (h : Spec.nextLine acc s = some (l, r)) :
    r.length < s.length := by
  induction s generalizing acc with
  | nil => simp [Spec.nextLine] at h
  | cons c s ih =>
    unfold Spec.nextLine at h
    split at h
    · split at h
      · have := ih h; simp; omega
      · simp only [Option.some.injEq, Prod.mk.injEq] at h; rw [← h.2]; simp
    · have := ih h; simp; omega

/-- `untilOk` in terms of the next line. -/
theorem untilOk_line (acc result s : Bytes) :
    Spec.untilOk acc result s =
      match Spec.nextLine acc s with
      | none => none
      | some (line, r) =>
        if [79, 75] <+: line then some (.bytes result, r)
        else if [69, 82, 82] <+: line then some (.commandError line, r)
        else Spec.untilOk [] (result ++ line ++ [10]) r := by
  induction s generalizing acc with
  | nil => rfl
  | cons c s ih =>
    rw [Spec.untilOk, Spec.nextLine]
    by_cases hc : c = 10 ∨ c = 13
    · rw [if_pos hc, if_pos hc]
      by_cases hb : rstrip acc = []
      · rw [if_pos hb, if_pos hb]; exact ih []
      · rw [if_neg hb, if_neg hb]
    · rw [if_neg hc, if_neg hc]; exact ih _

theorem readUntilOkLoop_flat (n : Nat) (result : Bytes) (s : St α)
    (h : (s.flat join).length < n) :
    flatten join (readUntilOkLoop join n result s) = Spec.untilOk [] result (s.flat join) := by
  induction n generalizing s result with
  | zero => omega
  | succ n ih =>
    unfold readUntilOkLoop
    rw [untilOk_line]
    have hr := readline_flat join s
    cases hl : readline join s with
    | none => rw [hl] at hr; simp only [flatten, Option.map_none] at hr; rw [← hr]; rfl
    | some x =>
      obtain ⟨line, s'⟩ := x
      rw [hl] at hr
      simp only [flatten, Option.map_some] at hr
      have hsh := nextLine_shorter hr.symm
      rw [← hr]
      simp only [List.isPrefixOf_iff_prefix]
      split
      · rfl
      · split
        · rfl
        · rw [ih _ s' (by omega)]; simp

theorem exec_flat (s : St α) (op : Op) :
    flatten join (exec join s op) = Spec.exec (s.flat join) op := by
  cases op with
  | read n =>
    have := read_flat join n s
    simp only [exec, Spec.exec, ← this, flatten, Option.map_map]
    rfl
  | readline =>
    have := readline_flat join s
    simp only [exec, Spec.exec, ← this, flatten, Option.map_map]
    rfl
  | readUntilOk => exact readUntilOkLoop_flat join _ [] s (Nat.lt_succ_self _)
  | readBinaryBlob =>
    simp only [exec, Spec.exec, readBinaryBlob, Spec.blob]
    rw [← read_flat join 5 s]
    cases hr : read join 5 s with
    | none => rfl
    | some x =>
      obtain ⟨h, s'⟩ := x
      simp only [flatten, Option.map_some]
      by_cases h0 : h[0]? = some 10
      · rw [if_neg (by simp [h0]), if_pos h0]
        rw [← read_flat join _ s']
        cases read join (leNat (h.drop 1)) s' with
        | none => rfl
        | some y => rfl
      · rw [if_pos (by simpa using h0), if_neg h0]; rfl

/-- C19: every operation does to the buffered and still arriving bytes what it
does to a plain byte stream; in particular bytes are neither lost nor
duplicated between operations. -/
theorem C19_refines_byte_stream (s : St α) (op : Op) :
    (exec join s op).map (fun x => (x.1, x.2.flat join)) = Spec.exec (s.flat join) op :=
  exec_flat join s op

end

/-- C19: a client that performs any number of operations, each chosen from
the previous results, sees the same results (and blocks at the same point) for
every division of the same bytes into frames and polls. -/
theorem C19_chunk_invariant {α β : Type} (join : α → Bytes) (join' : β → Bytes)
    (client : List Out → Option Op) (n : Nat) (h : List Out) (s : St α) (s' : St β)
    (hs : s.flat join = s'.flat join') :
    session join client n h s = session join' client n h s' := by
  induction n generalizing h s s' with
  | zero => rfl
  | succ n ih =>
    unfold session
    cases client h with
    | none => rfl
    | some op =>
      simp only
      have e1 := exec_flat join s op
      have e2 := exec_flat join' s' op
      rw [hs, ← e2] at e1
      cases h1 : exec join s op with
      | none =>
        rw [h1] at e1
        cases h2 : exec join' s' op with
        | none => rfl
        | some y => rw [h2] at e1; simp [flatten] at e1
      | some x =>
        rw [h1] at e1
        cases h2 : exec join' s' op with
        | none => rw [h2] at e1; simp [flatten] at e1
        | some y =>
          rw [h2] at e1
          simp only [flatten, Option.map_some, Option.some.injEq, Prod.mk.injEq] at e1
          obtain ⟨a, b⟩ := e1
          simp only [a]
          exact ih _ _ _ b

/-- C19: reading a given number of bytes returns the next ones, in order. -/
theorem C19_read_exact (n : Nat) (s : St (List (Option Bytes))) (b : Bytes)
    (s' : St (List (Option Bytes))) (h : read joinPoll n s = some (b, s')) :
    b.length = n ∧ s.flat joinPoll = b ++ s'.flat joinPoll := by
  have := read_flat joinPoll n s
  rw [h] at this
  simp only [flatten, Option.map_some, Spec.read] at this
  split at this
  · next hc =>
    simp only [Option.some.injEq, Prod.mk.injEq] at this
    rw [this.1, this.2, List.take_append_drop, List.length_take]
    exact ⟨by omega, rfl⟩
  · simp at this

/-- The non blocking form returns what happens to be there: its result depends
on the frame boundaries. -/
theorem C19_nonblocking_depends :
    (readSome joinPoll 4 ⟨[], [[some [1]], [some [2]]]⟩).map Prod.fst = some [1] ∧
    (readSome joinPoll 4 ⟨[], [[some [1, 2]]]⟩).map Prod.fst = some [1, 2] := by decide

/-- A read of zero bytes waits for data although none is needed. -/
theorem C19_read_zero_blocks : (read joinPoll 0 ⟨[], []⟩).isNone = true := by decide

/-- An answer in three polls, one of them lost and one empty. -/
example : (exec joinPoll ⟨[], [[some "ab".toUTF8.toList], [none], [some []],
    [some "c\r\nOK".toUTF8.toList], [some "\r\n".toUTF8.toList]]⟩ .readUntilOk).map Prod.fst =
    some (.bytes "abc\n".toUTF8.toList) := by decide +kernel

example : (St.flat joinPoll ⟨[1], [[some [2], none], [], [some [3]]]⟩) =
    St.flat (fun b => b) ⟨[], [[1, 2], [3]]⟩ := by decide

/-! ## C51, C52: the serial adapter -/

theorem adapterLine_line (l : Bytes) (c : UInt8) (r acc : Bytes) (hl : ∀ x ∈ l, isNewline x = false)
    (hc : isNewline c = true) :
    Spec.adapterLine acc (l ++ c :: r) =
      if acc ++ l = [] then Spec.adapterLine [] r else some (acc ++ l ++ [c], r) := by
  induction l generalizing acc with
  | nil =>
    rw [List.nil_append, Spec.adapterLine, if_pos ((isNewline_iff c).mp hc), List.append_nil]
  | cons x l ih =>
    rw [List.cons_append, Spec.adapterLine, if_neg (isNewline_false x (hl x (by simp))),
      ih (acc ++ [x]) (fun y hy => hl y (by simp [hy]))]
    simp

theorem adapterLine_none (l acc : Bytes) (hl : ∀ x ∈ l, isNewline x = false) :
    Spec.adapterLine acc l = none := by
  induction l generalizing acc with
  | nil => rfl
  | cons x l ih =>
    rw [Spec.adapterLine, if_neg (isNewline_false x (hl x (by simp))),
      ih _ (fun y hy => hl y (by simp [hy]))]

theorem adapterLineLoop_flat (n : Nat) (s : St Bytes) (h : (s.flat id).length < n) :
    flatten id (adapterLineLoop n s) = Spec.adapterLine [] (s.flat id) := by
  induction n generalizing s with
  | zero => omega
  | succ n ih =>
    have hs : s.flat id = s.buf ++ s.polls.flatMap id := rfl
    unfold adapterLineLoop
    rcases fill_spec id (fun b => b.any isNewline)
      (by intro b x h; rw [List.any_append, h, Bool.true_or]) s.buf s.polls with
      ⟨h1, h2⟩ | ⟨s', h1, h2, h3, h4⟩
    · rw [h1, adapterLine_none _ _ (by rw [hs]; exact no_newline h2)]; rfl
    · rw [h1]
      obtain ⟨l, c, r, e1, e2, e3, e4⟩ := any_newline_split h3
      have hfl : s.flat id = l ++ c :: (St.flat id ⟨r, s'.polls⟩) := by
        rw [hs, ← h2]; simp [St.flat, e1]
      simp only [e4]
      have hd : s'.buf.drop (l.length + 1) = r := by
        rw [e1, show l ++ c :: r = (l ++ [c]) ++ r by simp,
          show l.length + 1 = (l ++ [c]).length by simp, List.drop_left]
      have ht : s'.buf.take (l.length + 1) = l ++ [c] := by
        rw [e1, show l ++ c :: r = (l ++ [c]) ++ r by simp,
          show l.length + 1 = (l ++ [c]).length by simp, List.take_left]
      rw [hd, ht, hfl, adapterLine_line l c _ [] e2 e3, List.nil_append]
      by_cases he : l = []
      · subst he
        simp only [List.length_nil, Nat.lt_irrefl, if_false, if_true]
        apply ih
        have := congrArg List.length hfl
        simp at this
        omega
      · rw [if_pos (List.length_pos_iff.mpr he), if_neg he]; rfl

theorem adapterLine_flat (s : St Bytes) :
    flatten id (adapterLine s) = Spec.adapterLine [] (s.flat id) :=
  adapterLineLoop_flat _ s (Nat.lt_succ_self _)

/-- The adapter conversation on a plain byte stream. -/
def Spec.doCommand (reply : Bool) (s : Bytes) :
    Option (Except Err (Option (Int × Bytes)) × Bytes) :=
  match Spec.adapterLine [] s with
  | none => none
  | some (ok, s) =>
    if ¬ [79, 75] <+: ok then some (.error .runtimeError, s)
    else if reply then
      match Spec.adapterLine [] s with
      | none => none
      | some (line, s) =>
        if ¬ [114, 99, 118] <+: line then some (.error .runtimeError, s)
        else match Can.parseRcv line with
          | none => some (.error .valueError, s)
          | some f => some (.ok (some f), s)
    else some (.ok none, s)

theorem doCommand_flat (r : Bool) (s : St Bytes) :
    flatten id (doCommand r s) = Spec.doCommand r (s.flat id) := by
  unfold doCommand Spec.doCommand
  rw [← adapterLine_flat s]
  cases adapterLine s with
  | none => rfl
  | some x =>
    obtain ⟨ok, s1⟩ := x
    simp only [flatten, Option.map_some, List.isPrefixOf_iff_prefix]
    split
    · rfl
    · cases r
      · rfl
      · simp only [if_true]
        rw [← adapterLine_flat s1]
        cases adapterLine s1 with
        | none => rfl
        | some y =>
          obtain ⟨line, s2⟩ := y
          simp only [flatten, Option.map_some]
          split
          · rfl
          · cases Can.parseRcv line <;> rfl

/-- C51: what a cycle returns does not depend on how the operating system
splits the serial data. -/
theorem C51_serial_chunk_invariant (rs : List Bool) (s s' : St Bytes) (h : s.flat id = s'.flat id) :
    (cycle rs s).map (fun x => (x.1, x.2.flat id)) = (cycle rs s').map (fun x => (x.1, x.2.flat id)) := by
  induction rs generalizing s s' with
  | nil => simp [cycle, h]
  | cons r rs ih =>
    have e1 := doCommand_flat r s
    have e2 := doCommand_flat r s'
    rw [h, ← e2] at e1
    unfold cycle
    cases h1 : doCommand r s with
    | none =>
      rw [h1] at e1
      cases h2 : doCommand r s' with
      | none => rfl
      | some y => rw [h2] at e1; simp [flatten] at e1
    | some x =>
      rw [h1] at e1
      cases h2 : doCommand r s' with
      | none => rw [h2] at e1; simp [flatten] at e1
      | some y =>
        obtain ⟨a, sa⟩ := x
        obtain ⟨b, sb⟩ := y
        rw [h2] at e1
        simp only [flatten, Option.map_some, Option.some.injEq, Prod.mk.injEq] at e1
        obtain ⟨rfl, hb⟩ := e1
        cases a with
        | error e => simp [hb]
        | ok v =>
          simp only
          have := ih sa sb hb
          cases h3 : cycle rs sa with
          | none =>
            rw [h3] at this
            cases h4 : cycle rs sb with
            | none => rfl
            | some z => rw [h4] at this; simp at this
          | some w =>
            rw [h3] at this
            cases h4 : cycle rs sb with
            | none => rw [h4] at this; simp at this
            | some z =>
              obtain ⟨w1, w2⟩ := w
              obtain ⟨z1, z2⟩ := z
              rw [h4] at this
              simp only [Option.map_some, Option.some.injEq, Prod.mk.injEq] at this
              obtain ⟨rfl, hz⟩ := this
              cases w1 <;> simp [hz]

/-- What an adapter sends for one command: an acknowledge and, if a reply was
requested, the received frame (identifier, data, flags). -/
def Spec.answer : Option (Nat × Bytes × Bytes) → Bytes
  | none => [79, 75, 13, 10]
  | some (ident, data, flags) =>
    [79, 75, 13, 10] ++ ([114, 99, 118, 32] ++ Can.hexDigits ident ++ 32 ::
      (Can.hexify data ++ 32 :: flags)) ++ [13, 10]

theorem adapterLine_crlf (l rest : Bytes) (hl : ∀ x ∈ l, isNewline x = false) (hne : l ≠ []) :
    Spec.adapterLine [] (l ++ 13 :: 10 :: rest) = some (l ++ [13], 10 :: rest) := by
  rw [adapterLine_line l 13 _ [] hl (by decide), List.nil_append, if_neg hne]

theorem adapterLine_lf (s : Bytes) : Spec.adapterLine [] (10 :: s) = Spec.adapterLine [] s := by
  simp [Spec.adapterLine]

/-- The rest of a stream after the line feed that a line reader leaves. -/
def Spec.Same (a b : Bytes) : Prop := Spec.adapterLine [] a = Spec.adapterLine [] b

theorem doCommand_answer (a : Option (Nat × Bytes × Bytes)) (pre rest : Bytes)
    (hpre : pre = [] ∨ pre = [10])
    (hf : ∀ i d f, a = some (i, d, f) → ∀ x ∈ f, isNewline x = false) :
    Spec.doCommand a.isSome (pre ++ (Spec.answer a ++ rest)) =
      some (.ok (a.map fun x => ((x.1 : Int), x.2.1)), 10 :: rest) := by
  have ok : ∀ s, Spec.adapterLine [] (pre ++ ([79, 75, 13, 10] ++ s)) = some ([79, 75, 13], 10 :: s) := by
    intro s
    have := adapterLine_crlf [79, 75] s (by decide) (by decide)
    rcases hpre with rfl | rfl
    · simpa using this
    · rw [List.singleton_append, adapterLine_lf]; simpa using this
  cases a with
  | none =>
    unfold Spec.doCommand Spec.answer
    rw [ok]
    simp
  | some x =>
    obtain ⟨ident, data, flags⟩ := x
    have hfl := hf ident data flags rfl
    unfold Spec.doCommand
    have e : pre ++ (Spec.answer (some (ident, data, flags)) ++ rest) =
        pre ++ ([79, 75, 13, 10] ++ (([114, 99, 118, 32] ++ Can.hexDigits ident ++ 32 ::
          (Can.hexify data ++ 32 :: flags)) ++ 13 :: 10 :: rest)) := by
      simp [Spec.answer]
    rw [e, ok]
    simp only [Option.isSome_some, if_true]
    rw [if_neg (by decide), adapterLine_lf]
    have hnl : ∀ x ∈ [114, 99, 118, 32] ++ Can.hexDigits ident ++ 32 ::
          (Can.hexify data ++ 32 :: flags), isNewline x = false := by
      intro x hx
      simp only [List.mem_append, List.mem_cons] at hx
      have hd : x ∈ Can.hexDigits ident → isNewline x = false := by
        intro h
        obtain ⟨ds, h1, h2, _⟩ := Can.hexDigits_nybbles ident
        rw [h1] at h
        obtain ⟨d, hd, rfl⟩ := List.mem_map.mp h
        have : ∀ d < 16, isNewline (Can.hexDigit false d) = false := by decide
        exact this d (h2 d hd)
      have hh : x ∈ Can.hexify data → isNewline x = false := by
        intro h
        have := (Can.C16_one_token data).2 x h
        unfold Can.Spec.IsHex at this
        simp only [isNewline, Bool.or_eq_false_iff, beq_eq_false_iff_ne]
        constructor <;> rintro rfl <;> simp at this
      rcases hx with ((rfl | rfl | rfl | rfl | h) | h) | rfl | h | rfl | h
      all_goals first | decide | exact hd h | exact hh h | exact hfl x h | simp at h
    rw [adapterLine_crlf _ rest hnl (by simp)]
    simp only
    rw [if_neg (by simp)]
    have hp := Can.C16_received_line ident data (flags ++ [13])
    have e2 : [114, 99, 118, 32] ++ Can.hexDigits ident ++ 32 ::
          (Can.hexify data ++ 32 :: flags) ++ [13] =
        [114, 99, 118, 32] ++ Can.hexDigits ident ++ 32 :: (Can.hexify data ++ 32 :: (flags ++ [13])) := by
      simp
    rw [e2, hp]
    rfl

/-- C52: if the adapter acknowledges every command and delivers one frame for
each command that asks for a reply, a cycle returns one result per command, in
order: the frame received for it, or nothing if it did not ask. -/
theorem C52_replies_in_order (answers : List (Option (Nat × Bytes × Bytes)))
    (hf : ∀ a ∈ answers, ∀ i d f, a = some (i, d, f) → ∀ x ∈ f, isNewline x = false)
    (s : St Bytes) (rest : Bytes) (hs : s.flat id = answers.flatMap Spec.answer ++ rest) :
    ∃ s', cycle (answers.map Option.isSome) s =
      some (.ok (answers.map fun a => a.map fun x => ((x.1 : Int), x.2.1)), s') := by
  have key : ∀ (answers : List (Option (Nat × Bytes × Bytes))) (pre : Bytes) (s : St Bytes),
      (∀ a ∈ answers, ∀ i d f, a = some (i, d, f) → ∀ x ∈ f, isNewline x = false) →
      (pre = [] ∨ pre = [10]) → s.flat id = pre ++ (answers.flatMap Spec.answer ++ rest) →
      ∃ s', cycle (answers.map Option.isSome) s =
        some (.ok (answers.map fun a => a.map fun x => ((x.1 : Int), x.2.1)), s') := by
    intro answers
    induction answers with
    | nil => intro pre s _ _ _; exact ⟨s, rfl⟩
    | cons a as ih =>
      intro pre s hf hpre hs
      have h1 := doCommand_flat a.isSome s
      rw [List.flatMap_cons, List.append_assoc] at hs
      rw [hs, doCommand_answer a pre _ hpre (fun i d f h => hf a (by simp) i d f h)] at h1
      cases hd : doCommand a.isSome s with
      | none => rw [hd] at h1; simp [flatten] at h1
      | some x =>
        obtain ⟨r, s1⟩ := x
        rw [hd] at h1
        simp only [flatten, Option.map_some, Option.some.injEq, Prod.mk.injEq] at h1
        obtain ⟨rfl, h2⟩ := h1
        obtain ⟨s2, h3⟩ := ih [10] s1 (fun b hb => hf b (by simp [hb])) (Or.inr rfl)
          (by rw [h2]; rfl)
        refine ⟨s2, ?_⟩
        simp only [List.map_cons, cycle, hd, h3]
  exact key answers [] s hf (Or.inl rfl) (by simpa using hs)

/-- C52: a line that is not an acknowledge raises instead of being taken for
one. -/
theorem C52_lost_synchronization (r : Bool) (s s1 : St Bytes) (line : Bytes)
    (h : adapterLine s = some (line, s1)) (hn : ¬ [79, 75] <+: line) (rs : List Bool) :
    ∃ s2, cycle (r :: rs) s = some (.error .runtimeError, s2) := by
  refine ⟨s1, ?_⟩
  have : doCommand r s = some (.error .runtimeError, s1) := by
    unfold doCommand
    rw [h]
    simp [hn]
  simp [cycle, this]

example : (cycle [true, false] ⟨[], ["OK\r\nrcv 100 2000".toUTF8.toList, "0A E F B\r".toUTF8.toList,
    "\nOK\r\n".toUTF8.toList]⟩).map Prod.fst =
    some (.ok [some (256, [0x20, 0x00, 0x0a]), none]) := by decide +kernel

end Verif.Stream
