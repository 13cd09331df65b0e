import Verif.Multiplex.DecodeLemmas

/-! # Properties C01, C02, C05 - C09 -/

namespace Verif.Multiplex

open Verif Verif.Float Verif.Multiplex.Spec

/-! ## C01 -/

/-- C01: a number below 2^35 survives, whatever is before and after it, and
the reader stops right behind it. -/
theorem C01_varuint_round_trip (v : Nat) (h : v < 2 ^ 35) (pre post : Bytes) :
    readVaruint pre.length (pre ++ writeVaruint v ++ post) =
      (some v, pre.length + (writeVaruint v).length) := by
  rw [readVaruint_eq, List.append_assoc, List.drop_left,
    spec_varuint_write 4 v post (by simpa using h)]
  simp; omega

/-- C01: a larger number is reported as unreadable. -/
theorem C01_varuint_too_large (v : Nat) (h : 2 ^ 35 ≤ v) (pre post : Bytes) :
    (readVaruint pre.length (pre ++ writeVaruint v ++ post)).1 = none := by
  rw [readVaruint_eq, List.append_assoc, List.drop_left,
    spec_varuint_write_large 5 v post (by simpa using h)]

/-- C01: the encoding is the documented one. -/
theorem C01_varuint_documented (v : Nat) (h : v < 2 ^ 35) (post : Bytes) :
    varuint 5 (writeVaruint v ++ post) = some (v, post) :=
  spec_varuint_write 4 v post (by simpa using h)

example : writeVaruint 300 = [0xac, 0x02] := by
  rw [writeVaruint_large (by decide), writeVaruint_small (by decide)]; decide
example : readVaruint 1 [0x11, 0xac, 0x02, 0xff] = (some 300, 3) := by decide
example : (300 : Nat) < 2 ^ 35 ∧ 2 ^ 35 ≤ 34359738368 := by decide

/-! ## C02 -/

/-- C02: on arbitrary bytes the reader behaves; at most five bytes are
consumed, the offset stays inside of the buffer and a value is below 2^35. -/
theorem C02_varuint_safe (off : Nat) (buf : Bytes) (h : off ≤ buf.length) :
    off ≤ (readVaruint off buf).2 ∧ (readVaruint off buf).2 ≤ off + 5 ∧
      (readVaruint off buf).2 ≤ buf.length ∧
      ∀ v, (readVaruint off buf).1 = some v → v < 2 ^ 35 ∧ off < (readVaruint off buf).2 := by
  rw [readVaruint_eq]
  cases hv : varuint 5 (buf.drop off) with
  | none => simp; omega
  | some p =>
    obtain ⟨v, rest⟩ := p
    obtain ⟨h1, used, h2, h3, h4, _⟩ := spec_varuint_some hv
    have hl := congrArg List.length h2
    simp at hl
    simp at h1 ⊢
    omega

/-- C02: the value is determined by the consumed bytes. -/
theorem C02_varuint_local (off : Nat) (buf buf' : Bytes) (v : Nat) (e : Nat)
    (h : readVaruint off buf = (some v, e))
    (hsame : (buf.drop off).take (e - off) <+: buf'.drop off) (hoff : off ≤ buf.length)
    (hoff' : off ≤ buf'.length) :
    readVaruint off buf' = (some v, e) := by
  rw [readVaruint_eq] at h
  split at h
  · next v' rest heq =>
    obtain ⟨h1, used, h2, h3, h4, h5⟩ := spec_varuint_some heq
    simp only [Prod.mk.injEq, Option.some.injEq] at h
    obtain ⟨rfl, rfl⟩ := h
    have hl := congrArg List.length h2
    simp at hl
    have htake : (buf.drop off).take (buf.length - rest.length - off) = used := by
      rw [h2, show buf.length - rest.length - off = used.length by omega, List.take_left]
    rw [htake] at hsame
    obtain ⟨t, ht⟩ := hsame
    rw [readVaruint_eq, ← ht, h5 t]
    have hl2 := congrArg List.length ht
    simp at hl2 ⊢
    omega
  · simp at h

example : readVaruint 0 [0x80, 0x80, 0x80, 0x80, 0x80, 0x00] = (none, 5) := by decide
example : readVaruint 0 [0x80, 0x80] = (none, 2) := by decide

/-! ## C05 -/

/-- Run the combiner over entries, as the command functions do. -/
def emit (buf : Bytes) (base start : Nat) (items : List (Option Res × Bytes)) :
    Except Err WriteCombiner :=
  (WriteCombiner.init buf base start (items.map Prod.fst)).run (items.map fun i => .ok i.2)

/-- The complete reply parse; the fuel is always sufficient (`C09`). -/
def parse (data : Bytes) : Option (Except Err (List (Nat × Res × Bytes))) :=
  RegisterParser.loop (data.length + 1) (RegisterParser.init data)

theorem emit_ok {base : Nat} (hb : BaseOk base) (buf : Bytes) (start : Nat)
    (items : List (Option Res × Bytes)) (hrun : ¬ LongRun (items.map Prod.fst)) :
    ∃ c, emit buf base start items = .ok c ∧
      c.buf = buf ++ enc base start none items ∧
      c.replySize = encSize base start none (items.map Prod.fst) := by
  obtain ⟨c, h1, h2, h3⟩ := run_ok hb items [] (WriteCombiner.init buf base start (items.map Prod.fst))
    rfl rfl rfl ((runsOk_iff _ _ (by simp [WriteCombiner.init])).mpr hrun)
  exact ⟨c, h1, by simpa [WriteCombiner.init] using h2, by simpa [WriteCombiner.init] using h3⟩

/-- `enc` needs at least one byte for each wanted item. -/
theorem numWanted_le (items : List (Option Res × Bytes)) (base reg : Nat) (prev)
    (hsz : SizesOk items) : numWanted items ≤ (enc base reg prev items).length := by
  induction items generalizing reg prev with
  | nil => simp [numWanted]
  | cons it items ih =>
    obtain ⟨x, w⟩ := it
    have hsz' : SizesOk items := fun r v h => hsz r v (List.mem_cons_of_mem _ h)
    cases x with
    | none => simpa [numWanted, enc] using ih _ _ hsz'
    | some r =>
      have := ih (reg + 1) (some (some r)) hsz'
      have hw := hsz r w (by simp)
      have := r.size_pos
      simp only [numWanted, enc, List.length_append]
      omega

theorem parse_enc (items : List (Option Res × Bytes)) (start : Nat) (tail : Bytes)
    (hsz : SizesOk items) (hrun : ¬ LongRun (items.map Prod.fst))
    (hreg : start + items.length ≤ 2 ^ 35) :
    parse (enc 0x20 start none items ++ tail) = prepend (wantedValues start items) (parse tail) := by
  unfold parse
  have hn := numWanted_le items 0x20 start none hsz
  have hlen : (enc 0x20 start none items ++ tail).length + 1 =
      ((enc 0x20 start none items).length - numWanted items + (tail.length + 1)) + numWanted items := by
    simp; omega
  rw [hlen, loop_enc items start none tail _ (RegisterParser.init _) rfl rfl hsz
    ((runsOk_iff _ _ (by simp)).mpr hrun) hreg]
  rw [loop_fuel (fuel := tail.length + 1) (by simp) (by omega)]
  rfl

/-- C05: what is written is what is parsed, in front of anything that
follows.  `emit` appends to the bytes already in the frame. -/
theorem C05_block_round_trip (pre tail : Bytes) (start : Nat) (items : List (Option Res × Bytes))
    (hsz : SizesOk items) (hrun : ¬ LongRun (items.map Prod.fst))
    (hreg : start + items.length ≤ 2 ^ 35) :
    ∃ c body, emit pre 0x20 start items = .ok c ∧ c.buf = pre ++ body ∧
      ∀ l, parse tail = some (.ok l) →
        parse (body ++ tail) = some (.ok (wantedValues start items ++ l)) := by
  obtain ⟨c, h1, h2, _⟩ := emit_ok (Or.inr (Or.inr rfl)) pre start items hrun
  refine ⟨c, enc 0x20 start none items, h1, h2, ?_⟩
  intro l hl
  rw [parse_enc items start tail hsz hrun hreg, hl]; rfl

/-- C05, commands: the controller sees the same registers and values. -/
theorem C05_block_write_documented (pre tail : Bytes) (start : Nat)
    (items : List (Option Res × Bytes))
    (hsz : SizesOk items) (hrun : ¬ LongRun (items.map Prod.fst))
    (hreg : start + items.length ≤ 2 ^ 35) :
    ∃ c body, emit pre 0x00 start items = .ok c ∧ c.buf = pre ++ body ∧
      accesses (body ++ tail) = (accesses tail).map
        (((wantedValues start items).map fun x => Access.write x.1 x.2.1 x.2.2) ++ ·) := by
  obtain ⟨c, h1, h2, _⟩ := emit_ok (Or.inl rfl) pre start items hrun
  exact ⟨c, enc 0x00 start none items, h1, h2,
    accesses_write_enc items start tail hsz ((runsOk_iff _ _ (by simp)).mpr hrun) hreg⟩

/-- C05: more than 127 registers in a block raise an error; nothing wrong is
emitted. -/
theorem C05_long_block_raises {base : Nat} (hb : BaseOk base) (pre : Bytes) (start : Nat)
    (items : List (Option Res × Bytes)) (hrun : LongRun (items.map Prod.fst)) :
    emit pre base start items = .error .structError :=
  run_err hb items [] (WriteCombiner.init pre base start (items.map Prod.fst))
    rfl rfl rfl (fun h => (runsOk_iff _ _ (by simp [WriteCombiner.init])).mp h hrun)

/-- The hypotheses are met by a mixed list with two blocks and a gap. -/
example : SizesOk [(some .int8, [1]), (some .int8, [2]), (none, []), (some .int16, [3, 4])] ∧
    (emit [] 0x20 0x40 [(some .int8, [1]), (some .int8, [2]), (none, []), (some .int16, [3, 4])]).toOption.map
      (·.buf) = some [0x22, 0x40, 1, 2, 0x25, 0x43, 3, 4] := by
  constructor
  · intro r v h; simp at h; rcases h with ⟨rfl, rfl⟩ | ⟨rfl, rfl⟩ | ⟨rfl, rfl⟩ <;> rfl
  · decide +kernel

/-! ## C06 -/

/-- The list built by `QueryParser.parse`; the fuel is always sufficient. -/
def parseQuery (data : Bytes) : Option (Except Err (List (Option (Nat × Res)))) :=
  QueryParser.loop (256 * data.length + 1) (QueryParser.init data)

/-- `QueryParser.parse` always comes back. -/
theorem C06_query_parser_total (data : Bytes) : ∃ r, parseQuery data = some r :=
  qloop_total (by simp [QueryParser.init])

theorem wanted_length_le (reg : Nat) (rs : List (Option Res)) : (wanted reg rs).length ≤ rs.length := by
  induction rs generalizing reg with
  | nil => simp [wanted]
  | cons x rs ih =>
    have := ih (reg + 1)
    cases x <;> simp [wanted] <;> omega

theorem qloop_mono {f f' : Nat} {p : QueryParser} {r} (h : QueryParser.loop f p = some r)
    (hle : f ≤ f') : QueryParser.loop f' p = some r := by
  induction f generalizing p f' r with
  | zero => simp [QueryParser.loop] at h
  | succ f ih =>
    obtain ⟨g, rfl⟩ : ∃ g, f' = g + 1 := ⟨f' - 1, by omega⟩
    unfold QueryParser.loop at h ⊢
    cases hn : p.next with
    | mk o p' =>
      rw [hn] at h
      cases o with
      | stop => exact h
      | err e => exact h
      | pyNone =>
        simp only [Option.map_eq_some_iff] at h ⊢
        obtain ⟨a, h1, h2⟩ := h
        exact ⟨a, ih h1 (by omega), h2⟩
      | item reg res =>
        simp only [Option.map_eq_some_iff] at h ⊢
        obtain ⟨a, h1, h2⟩ := h
        exact ⟨a, ih h1 (by omega), h2⟩

/-- Any two sufficient amounts of fuel agree. -/
theorem qloop_agree {f f' : Nat} {p : QueryParser} {r r'}
    (h : QueryParser.loop f p = some r) (h' : QueryParser.loop f' p = some r') : r = r' := by
  rcases Nat.le_total f f' with hl | hl
  · have := qloop_mono h hl; rw [h'] at this; exact (Option.some.inj this).symm
  · have := qloop_mono h' hl; rw [h] at this; exact Option.some.inj this

theorem parseQuery_enc (rs : List (Option Res)) (start : Nat) (tail : Bytes)
    (hrun : ¬ LongRun rs) (hreg : start + rs.length ≤ 2 ^ 35) :
    parseQuery (enc 0x10 start none (noValues rs) ++ tail) =
      qprepend ((wanted start rs).map some) (parseQuery tail) := by
  obtain ⟨r, hr⟩ := C06_query_parser_total (enc 0x10 start none (noValues rs) ++ tail)
  obtain ⟨r', hr'⟩ := C06_query_parser_total tail
  have := qloop_enc rs start none tail (256 * tail.length + 1)
    (QueryParser.init (enc 0x10 start none (noValues rs) ++ tail)) rfl rfl
    ((runsOk_iff _ _ (by simp)).mpr hrun) hreg
  unfold parseQuery at hr' hr ⊢
  unfold QueryParser.init at hr'
  rw [hr'] at this
  rw [hr]
  unfold QueryParser.init
  rw [hr']
  cases h2 : qprepend ((wanted start rs).map some) (some r') with
  | none => simp [qprepend] at h2
  | some r2 =>
    rw [h2] at this
    rw [qloop_agree hr this]

theorem map_noValues (rs : List (Option Res)) :
    ((noValues rs).map fun i => (Except.ok i.2 : Except Err Bytes)) =
      List.replicate rs.length (.ok []) := by
  simp [noValues, Function.comp_def, List.map_const']

/-- C06: the query lists exactly the wanted registers, in order, and the
documented meaning of the query is the same list of reads. -/
theorem C06_query_exact (pre : Bytes) (start : Nat) (rs : List (Option Res))
    (hrun : ¬ LongRun rs) (hreg : start + rs.length ≤ 2 ^ 35) :
    ∃ c body, (WriteCombiner.init pre 0x10 start rs).runQuery = .ok c ∧ c.buf = pre ++ body ∧
      parseQuery body = some (.ok ((wanted start rs).map some)) ∧
      accesses body = some ((wanted start rs).map fun x => Access.read x.1 x.2) := by
  obtain ⟨c, h1, h2, _⟩ := emit_ok (Or.inr (Or.inl rfl)) pre start (noValues rs) (by simpa using hrun)
  refine ⟨c, enc 0x10 start none (noValues rs), ?_, h2, ?_, ?_⟩
  · unfold emit at h1
    rw [map_noValues, noValues_fst] at h1
    exact h1
  · have := parseQuery_enc rs start [] hrun hreg
    rw [List.append_nil] at this
    rw [this]
    simp [parseQuery, QueryParser.loop, QueryParser.next, QueryParser.init, qprepend, Except.map]
  · have := (read_enc rs start [] ((runsOk_iff _ _ (by simp)).mpr hrun) hreg).1
    rw [List.append_nil] at this
    rw [this]
    simp [accesses, decode_nil]

/-- C06: the requested registers are strictly increasing, thus without
duplicates. -/
theorem C06_query_increasing (start : Nat) (rs : List (Option Res)) :
    ((wanted start rs).map Prod.fst).Pairwise (· < ·) := by
  have key : ∀ (rs : List (Option Res)) (start : Nat), ∀ x ∈ wanted start rs, start ≤ x.1 := by
    intro rs
    induction rs with
    | nil => intro start x hx; simp [wanted] at hx
    | cons a rs ih =>
      intro start x hx
      cases a with
      | none => simp only [wanted] at hx; have := ih (start + 1) x hx; omega
      | some r =>
        simp only [wanted, List.mem_cons] at hx
        rcases hx with rfl | hx
        · exact Nat.le_refl _
        · have := ih (start + 1) x hx; omega
  induction rs generalizing start with
  | nil => simp [wanted]
  | cons a rs ih =>
    cases a with
    | none => simpa [wanted] using ih (start + 1)
    | some r =>
      simp only [wanted, List.map_cons, List.pairwise_cons]
      refine ⟨?_, ih (start + 1)⟩
      intro y hy
      obtain ⟨x, hx, rfl⟩ := List.mem_map.mp hy
      have := key rs (start + 1) x hx
      omega

example : wanted 3 [some .int8, none, some .f32] = [(3, .int8), (5, .f32)] := by decide
example : ¬ LongRun [some .int8, none, some .f32] := by
  rintro ⟨r, h⟩; have := h.length_le; simp at this

/-! ## C07 -/

/-- C07: the reply size that is announced is the size of the controller's
answer, and this answer parses to the requested registers. -/
theorem C07_reply_size_exact (pre : Bytes) (start : Nat) (rs : List (Option Res))
    (hrun : ¬ LongRun rs) (hreg : start + rs.length ≤ 2 ^ 35)
    (regs : Nat → Res → Bytes) (hsz : ∀ reg r, (regs reg r).length = r.size) :
    ∃ c body reply, (WriteCombiner.init pre 0x10 start rs).runQuery = .ok c ∧ c.buf = pre ++ body ∧
      answer regs body = some reply ∧ reply.length = c.replySize ∧
      parse reply = some (.ok ((wanted start rs).map fun x => (x.1, x.2, regs x.1 x.2))) := by
  obtain ⟨c, h1, h2, h3⟩ := emit_ok (Or.inr (Or.inl rfl)) pre start (noValues rs) (by simpa using hrun)
  refine ⟨c, enc 0x10 start none (noValues rs), enc 0x20 start none (withValues regs start rs),
    ?_, h2, ?_, ?_, ?_⟩
  · unfold emit at h1
    rw [map_noValues, noValues_fst] at h1
    exact h1
  · have := (read_enc rs start [] ((runsOk_iff _ _ (by simp)).mpr hrun) hreg).2 regs
    rw [List.append_nil] at this
    rw [this]
    simp [answer, decode_nil]
  · rw [h3, noValues_fst, encSize_eq 0x10 regs hsz]
  · have hs : SizesOk (withValues regs start rs) := by
      intro r v h
      have aux : ∀ (rs : List (Option Res)) (start : Nat),
          (some r, v) ∈ withValues regs start rs → v.length = r.size := by
        intro rs
        induction rs with
        | nil => intro start h; simp [withValues] at h
        | cons x rs ih =>
          intro start h
          cases x with
          | none => simp [withValues] at h; exact ih _ h
          | some r' =>
            simp only [withValues, List.mem_cons, Prod.mk.injEq, Option.some.injEq] at h
            rcases h with ⟨rfl, rfl⟩ | h
            · exact hsz _ _
            · exact ih _ h
      exact aux rs start h
    have := parse_enc (withValues regs start rs) start [] hs
      (by rw [withValues_fst]; exact hrun) (by rw [withValues_length]; exact hreg)
    rw [List.append_nil] at this
    rw [this, wantedValues_withValues]
    simp [parse, RegisterParser.loop, RegisterParser.next, RegisterParser.init, prepend, Except.map]

example : ∃ regs : Nat → Res → Bytes, ∀ reg r, (regs reg r).length = r.size :=
  ⟨fun _ r => List.replicate r.size 7, fun _ _ => by simp⟩

/-! ## C08 -/

theorem loop_congr_next (f : Nat) (p q : RegisterParser) (h : p.next = q.next) :
    RegisterParser.loop (f + 1) p = RegisterParser.loop (f + 1) q := by
  simp only [RegisterParser.loop, h]

theorem parse_nop (tail : Bytes) : parse (NOP :: tail) = parse tail := by
  cases tail with
  | nil => rfl
  | cons b tail =>
    have h : (RegisterParser.init (NOP :: b :: tail)).next = (RegisterParser.init (b :: tail)).next := by
      have h2 : (RegisterParser.init (b :: tail)).next = RegisterParser.scan 0 .int8 (b :: tail) := by
        simp [RegisterParser.next, RegisterParser.init]
      have h3 : (RegisterParser.init (NOP :: b :: tail)).next =
          RegisterParser.scan 0 .int8 (NOP :: b :: tail) := by
        simp [RegisterParser.next, RegisterParser.init]
      rw [h2, h3]
      conv => lhs; unfold RegisterParser.scan
      rw [if_pos rfl]
    unfold parse
    rw [loop_congr_next _ _ _ h]
    exact loop_fuel (by simp [RegisterParser.init]) (by simp)

/-- Padding in front of anything is ignored. -/
theorem C08_leading_padding (n : Nat) (tail : Bytes) :
    parse (List.replicate n NOP ++ tail) = parse tail := by
  induction n with
  | zero => rfl
  | succ n ih => simp [List.replicate_succ, parse_nop, ih]

/-- A frame: blocks of registers, each preceded by some padding bytes. -/
structure Segment where
  padding : Nat
  start : Nat
  items : List (Option Res × Bytes)

/-- The segment can be written. -/
def Segment.Ok (s : Segment) : Prop :=
  SizesOk s.items ∧ ¬ LongRun (s.items.map Prod.fst) ∧ s.start + s.items.length ≤ 2 ^ 35

/-- The bytes of a sequence of segments; each is written with the combiner. -/
def frameOf (base : Nat) : List Segment → Bytes → Except Err Bytes
  | [], buf => .ok buf
  | s :: ss, buf =>
    match emit (buf ++ List.replicate s.padding NOP) base s.start s.items with
    | .error e => .error e
    | .ok c => frameOf base ss c.buf

/-- C08 (and C05 for several blocks): padding at any block boundary, and at
the end, leaves the parsed registers unchanged. -/
theorem C08_padding_ignored (segs : List Segment) (hok : ∀ s ∈ segs, s.Ok) (n : Nat) :
    ∃ frame, frameOf 0x20 segs [] = .ok frame ∧
      parse (frame ++ List.replicate n NOP) =
        some (.ok (segs.flatMap fun s => wantedValues s.start s.items)) := by
  have gen : ∀ (segs : List Segment) (_ : ∀ s ∈ segs, s.Ok) (buf : Bytes),
      ∃ body, frameOf 0x20 segs buf = .ok (buf ++ body) ∧ ∀ tail,
        parse (body ++ tail) =
          prepend (segs.flatMap fun s => wantedValues s.start s.items) (parse tail) := by
    intro segs
    induction segs with
    | nil => intro _ buf; exact ⟨[], by simp [frameOf], by simp [prepend_nil]⟩
    | cons s segs ih =>
      intro hok buf
      obtain ⟨h1, h2, h3⟩ := hok s (by simp)
      obtain ⟨c, hc1, hc2, _⟩ := emit_ok (Or.inr (Or.inr rfl)) (buf ++ List.replicate s.padding NOP)
        s.start s.items h2
      obtain ⟨body, hb1, hb2⟩ := ih (fun s' h => hok s' (List.mem_cons_of_mem _ h)) c.buf
      refine ⟨List.replicate s.padding NOP ++ (enc 0x20 s.start none s.items ++ body), ?_, ?_⟩
      · rw [frameOf, hc1]; simp only; rw [hb1, hc2]; simp
      · intro tail
        rw [List.append_assoc, C08_leading_padding, List.append_assoc,
          parse_enc _ _ _ h1 h2 h3, hb2, List.flatMap_cons, prepend_append]
  obtain ⟨body, h1, h2⟩ := gen segs hok []
  refine ⟨body, by simpa using h1, ?_⟩
  rw [h2]
  have : parse (List.replicate n NOP) = some (.ok []) := by
    have := C08_leading_padding n []
    rw [List.append_nil] at this
    rw [this]; rfl
  rw [this]
  simp [prepend, Except.map]

/-- C08, command direction: padding at any block boundary, and at the end,
does not change what the controller is told (documented decoder). -/
theorem C08_padding_command (segs : List Segment) (hok : ∀ s ∈ segs, s.Ok) (n : Nat) :
    ∃ frame, frameOf 0x00 segs [] = .ok frame ∧
      accesses (frame ++ List.replicate n NOP) =
        some (segs.flatMap fun s =>
          (wantedValues s.start s.items).map fun x => Access.write x.1 x.2.1 x.2.2) := by
  have nops : ∀ n tail, accesses (List.replicate n NOP ++ tail) = accesses tail := by
    intro n tail; simp [accesses, decode_nops]
  have gen : ∀ (segs : List Segment) (_ : ∀ s ∈ segs, s.Ok) (buf : Bytes),
      ∃ body, frameOf 0x00 segs buf = .ok (buf ++ body) ∧ ∀ tail,
        accesses (body ++ tail) = (accesses tail).map ((segs.flatMap fun s =>
          (wantedValues s.start s.items).map fun x => Access.write x.1 x.2.1 x.2.2) ++ ·) := by
    intro segs
    induction segs with
    | nil => intro _ buf; exact ⟨[], by simp [frameOf], by simp⟩
    | cons s segs ih =>
      intro hok buf
      obtain ⟨h1, h2, h3⟩ := hok s (by simp)
      obtain ⟨c, hc1, hc2, _⟩ := emit_ok (Or.inl rfl) (buf ++ List.replicate s.padding NOP)
        s.start s.items h2
      obtain ⟨body, hb1, hb2⟩ := ih (fun s' h => hok s' (List.mem_cons_of_mem _ h)) c.buf
      refine ⟨List.replicate s.padding NOP ++ (enc 0x00 s.start none s.items ++ body), ?_, ?_⟩
      · rw [frameOf, hc1]; simp only; rw [hb1, hc2]; simp
      · intro tail
        rw [List.append_assoc, nops, List.append_assoc,
          accesses_write_enc _ _ _ h1 ((runsOk_iff _ _ (by simp)).mpr h2) h3, hb2,
          Option.map_map, List.flatMap_cons]
        simp [Function.comp_def]
  obtain ⟨body, h1, h2⟩ := gen segs hok []
  refine ⟨body, by simpa using h1, ?_⟩
  rw [h2]
  have := nops n []
  rw [List.append_nil] at this
  rw [this]
  simp [accesses, decode_nil]

/-- The query parser on the other hand reports an extra `None` for trailing
padding (multiplex.py:272-306 falls off the loop). -/
theorem C08_query_parser_padding (start : Nat) (rs : List (Option Res)) (n : Nat)
    (hrun : ¬ LongRun rs) (hreg : start + rs.length ≤ 2 ^ 35) :
    ∃ c, (WriteCombiner.init [] 0x10 start rs).runQuery = .ok c ∧
      parseQuery (c.buf ++ List.replicate (n + 1) NOP) =
        some (.ok ((wanted start rs).map some ++ [none])) := by
  obtain ⟨c, h1, h2, h3⟩ := emit_ok (Or.inr (Or.inl rfl)) [] start (noValues rs) (by simpa using hrun)
  refine ⟨c, ?_, ?_⟩
  · unfold emit at h1
    rw [map_noValues, noValues_fst] at h1
    exact h1
  rw [h2, List.nil_append]
  rw [parseQuery_enc rs start _ hrun hreg]
  have hscan : ∀ n, QueryParser.scan 0 .int8 (List.replicate n NOP) = (.pyNone, ⟨[], 0, 0, .int8⟩) := by
    intro n
    induction n with
    | zero => rfl
    | succ n ih =>
      rw [List.replicate_succ]
      unfold QueryParser.scan
      rw [if_pos rfl, ih]
  have : parseQuery (List.replicate (n + 1) NOP) = some (.ok [none]) := by
    obtain ⟨k, hk⟩ : ∃ k, 256 * (List.replicate (n + 1) NOP).length + 1 = k + 2 :=
      ⟨256 * n + 255, by simp; omega⟩
    unfold parseQuery
    rw [hk, QueryParser.loop]
    have hnx : (QueryParser.init (List.replicate (n + 1) NOP)).next = (.pyNone, ⟨[], 0, 0, .int8⟩) := by
      simp [QueryParser.next, QueryParser.init, hscan]
    rw [hnx]
    rfl
  rw [this]; rfl

/-! ## C09 -/

/-- C09: parsing arbitrary bytes ends, raises no overrun error, and every
value comes from its own place in the frame, in order. -/
theorem C09_reply_parse_total (data : Bytes) :
    ∃ l, parse data = some (.ok l) ∧ Layout data l := by
  exact loop_total (p := RegisterParser.init data) (by simp [RegisterParser.init])

/-- C09: more iterations would not find anything else. -/
theorem C09_reply_parse_stable (data : Bytes) (extra : Nat) :
    RegisterParser.loop (data.length + 1 + extra) (RegisterParser.init data) = parse data :=
  loop_fuel (by simp [RegisterParser.init]) (by omega)

/-- The values never take more bytes than the frame has. -/
theorem C09_values_fit (data : Bytes) (l : List (Nat × Res × Bytes)) (h : Layout data l) :
    (l.map fun x => x.2.1.size).sum ≤ data.length := by
  induction h with
  | nil => simp
  | cons gap value rest reg res items hv _ ih => simp at ih ⊢; omega

example : parse [0x22, 0x01, 7, 9, 0x50, 0x24, 0x00, 0x05, 0x10, 1, 2] =
    some (.ok [(1, .int8, [7]), (2, .int8, [9])]) := by decide

end Verif.Multiplex
