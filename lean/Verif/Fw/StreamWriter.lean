import Mathlib.Tactic.Ring

/-!
# The double buffered stream writer of the firmware

Model of `StreamWriter` (`fw/stream_writer.h`): callers hand over bytes and a
callback, the bytes are copied into one of two fixed size buffers, and the
buffer is handed to an asynchronous stream.  A failed `MJ_ASSERT` is `none`.

The stream reads the memory it was given when the write completes (the latest
moment), so a theorem about the delivered bytes includes that the memory was not
disturbed while the write was outstanding.  The completion is an event of its
own: a stream that completes inside of `AsyncWrite` is not modelled.

Properties C49 and C58.
-/

namespace Verif.Fw.StreamWriter

variable {κ : Type}

/-- `Data` (`fw/stream_writer.h` 90-93). -/
structure Data (κ : Type) where
  buffer : List UInt8
  callbacks : List (Option κ)

/-- The members (`fw/stream_writer.h` 95-102).  `p` tells which of the two is
`data_in_progress_`; the other one is `data_writing_`.  `flying` is the size of
the view given to the stream, `delivered` what the stream has sent, `called`
the callbacks invoked so far. -/
structure St (κ : Type) where
  d : Bool → Data κ
  p : Bool
  offset : ℕ
  outstanding : Bool
  flying : ℕ
  delivered : List UInt8
  called : List κ

/-- Fresh writer (`fw/stream_writer.h` 31-32, 95-102). -/
def init (size ncb : ℕ) : St κ :=
  ⟨fun _ => ⟨List.replicate size 0, List.replicate ncb none⟩, true, 0, false, 0, [], []⟩

/-- Replace one of the two buffers. -/
def St.set (s : St κ) (b : Bool) (x : Data κ) : St κ :=
  { s with d := fun c => if c = b then x else s.d c }

/-- `memcpy(&buffer[offset], ..)` (`fw/stream_writer.h` 39-40). -/
def memcpy (buf : List UInt8) (off : ℕ) (bytes : List UInt8) : List UInt8 :=
  buf.take off ++ bytes ++ buf.drop (off + bytes.length)

/-- Install a callback into the first free slot (`fw/stream_writer.h` 43-51). -/
def install : List (Option κ) → κ → Option (List (Option κ))
  | [], _ => none
  | none :: cs, k => some (some k :: cs)
  | some c :: cs, k => (install cs k).map (some c :: ·)

/-- `MaybeStartWrite` (`fw/stream_writer.h` 58-72). -/
def maybeStart (s : St κ) : St κ :=
  if s.outstanding then s
  else if s.offset = 0 then s
  else { s with p := !s.p, offset := 0, outstanding := true, flying := s.offset }

/-- `AsyncWrite` (`fw/stream_writer.h` 34-55). -/
def asyncWrite (size : ℕ) (s : St κ) (bytes : List UInt8) (k : κ) : Option (St κ) :=
  if s.offset + bytes.length ≤ size then
    let x := s.d s.p
    match install x.callbacks k with
    | none => none
    | some cbs =>
      some (maybeStart { s.set s.p ⟨memcpy x.buffer s.offset bytes, cbs⟩ with
        offset := s.offset + bytes.length })
  else none

/-- A callback is invoked; it may itself write (`onCall`). -/
def writes (size : ℕ) (s : St κ) : List (List UInt8 × κ) → Option (St κ)
  | [] => some s
  | (b, k) :: ws =>
    match asyncWrite size s b k with
    | none => none
    | some s => writes size s ws

/-- The loop over the slots of the `Data` with index `w`, from slot `i` on
(`fw/stream_writer.h` 76-83). -/
def slotLoop (size : ℕ) (onCall : κ → List (List UInt8 × κ)) (w : Bool) :
    ℕ → ℕ → St κ → Option (St κ)
  | 0, _, s => some s
  | n + 1, i, s =>
    match (s.d w).callbacks[i]? with
    | some (some k) =>
      let s := s.set w ⟨(s.d w).buffer, (s.d w).callbacks.set i none⟩
      match writes size { s with called := s.called ++ [k] } (onCall k) with
      | none => none
      | some s => slotLoop size onCall w n (i + 1) s
    | _ => slotLoop size onCall w n (i + 1) s

/-- `HandleWrite` (`fw/stream_writer.h` 74-86); the stream has just sent the
view it was given. -/
def complete (size ncb : ℕ) (onCall : κ → List (List UInt8 × κ)) (s : St κ) : Option (St κ) :=
  if s.outstanding then
    let w := !s.p
    let s := { s with
      delivered := s.delivered ++ (s.d w).buffer.take s.flying, outstanding := false, flying := 0 }
    (slotLoop size onCall w ncb 0 s).map maybeStart
  else some s

/-- What can happen. -/
inductive Ev (κ : Type)
  | write (bytes : List UInt8) (k : κ)
  | complete

def step (size ncb : ℕ) (onCall : κ → List (List UInt8 × κ)) (s : St κ) : Ev κ → Option (St κ)
  | .write b k => asyncWrite size s b k
  | .complete => complete size ncb onCall s

def run (size ncb : ℕ) (onCall : κ → List (List UInt8 × κ)) : St κ → List (Ev κ) → Option (St κ)
  | s, [] => some s
  | s, e :: es =>
    match step size ncb onCall s e with
    | none => none
    | some s => run size ncb onCall s es

/-! ## Specification: a queue of writes -/

/-- The writes requested by a list of events. -/
def requests : List (Ev κ) → List (List UInt8 × κ)
  | [] => []
  | .write b k :: es => (b, k) :: requests es
  | .complete :: es => requests es

/-- All bytes of a list of writes. -/
def bytesOf (ws : List (List UInt8 × κ)) : List UInt8 := ws.flatMap Prod.fst

/-- The callbacks that are waiting in a list of slots. -/
def waiting (cs : List (Option κ)) : List κ := cs.filterMap id

/-! ## Proof -/

/-- Slots: callbacks `ks` first, then empty ones. -/
def slots (n : ℕ) (ks : List κ) : List (Option κ) :=
  ks.map some ++ List.replicate (n - ks.length) none

theorem install_slots {n : ℕ} {ks : List κ} {k : κ} {r : List (Option κ)} (hn : ks.length ≤ n)
    (h : install (slots n ks) k = some r) : ks.length < n ∧ r = slots n (ks ++ [k]) := by
  induction ks generalizing n r with
  | nil =>
    cases n with
    | zero => simp [slots, install] at h
    | succ n =>
      simp [slots, install, List.replicate_succ] at h
      subst h
      simp [slots]
  | cons c cs ih =>
    cases n with
    | zero => simp at hn
    | succ n =>
      have e : slots (n + 1) (c :: cs) = some c :: slots n cs := by simp [slots]
      rw [e] at h
      simp only [install, Option.map_eq_some_iff] at h
      obtain ⟨r', h1, h2⟩ := h
      have := ih (by simpa using hn) h1
      refine ⟨by simpa using this.1, ?_⟩
      rw [← h2, this.2]
      simp [slots]

/-- The invariant: `ws` are all requests so far, split into completed, flying
and pending ones. -/
structure Inv (size ncb : ℕ) (s : St κ) (dn fl pd : List (List UInt8 × κ)) : Prop where
  delivered : s.delivered = bytesOf dn
  called : s.called = dn.map Prod.snd
  lenP : (s.d s.p).buffer.length = size
  lenW : (s.d !s.p).buffer.length = size
  bufP : (s.d s.p).buffer.take s.offset = bytesOf pd
  offP : s.offset = (bytesOf pd).length
  offS : s.offset ≤ size
  bufW : (s.d !s.p).buffer.take s.flying = bytesOf fl
  offW : s.flying = (bytesOf fl).length
  cbP : (s.d s.p).callbacks = slots ncb (pd.map Prod.snd)
  cbW : (s.d !s.p).callbacks = slots ncb (fl.map Prod.snd)
  nP : pd.length ≤ ncb
  nW : fl.length ≤ ncb
  idle : s.outstanding = false → fl = [] ∧ s.offset = 0
  busy : s.outstanding = true → 0 < s.flying

theorem bytesOf_append (a b : List (List UInt8 × κ)) : bytesOf (a ++ b) = bytesOf a ++ bytesOf b := by
  simp [bytesOf]

theorem inv_init (size ncb : ℕ) : Inv size ncb (init size ncb : St κ) [] [] [] := by
  constructor <;> simp [init, bytesOf, slots]

theorem memcpy_len {buf bytes : List UInt8} {off size : ℕ} (hl : buf.length = size)
    (h : off + bytes.length ≤ size) : (memcpy buf off bytes).length = size := by
  simp [memcpy]; omega

theorem memcpy_take {buf bytes : List UInt8} {off size : ℕ} (hl : buf.length = size)
    (h : off + bytes.length ≤ size) :
    (memcpy buf off bytes).take (off + bytes.length) = buf.take off ++ bytes := by
  unfold memcpy
  have : (buf.take off ++ bytes).length = off + bytes.length := by simp; omega
  rw [← this, List.take_left']
  rfl

theorem set_self (s : St κ) (b : Bool) (x : Data κ) : (s.set b x).d b = x := by simp [St.set]

theorem set_other (s : St κ) (b : Bool) (x : Data κ) : (s.set b x).d (!b) = s.d !b := by
  simp [St.set]

/-- State with the callbacks of the writing buffer emptied, before the next
write is started. -/
theorem inv_start {size ncb : ℕ} {s : St κ} {dn fl pd : List (List UInt8 × κ)}
    (hd : s.delivered = bytesOf dn) (hc : s.called = dn.map Prod.snd)
    (lenP : (s.d s.p).buffer.length = size) (lenW : (s.d !s.p).buffer.length = size)
    (bufP : (s.d s.p).buffer.take s.offset = bytesOf pd) (offP : s.offset = (bytesOf pd).length)
    (offS : s.offset ≤ size)
    (bufW : (s.d !s.p).buffer.take s.flying = bytesOf fl) (offW : s.flying = (bytesOf fl).length)
    (cbP : (s.d s.p).callbacks = slots ncb (pd.map Prod.snd))
    (cbW : (s.d !s.p).callbacks = slots ncb (fl.map Prod.snd))
    (nP : pd.length ≤ ncb) (nW : fl.length ≤ ncb)
    (idle : s.outstanding = false → fl = [])
    (busy : s.outstanding = true → 0 < s.flying) :
    ∃ fl' pd', fl' ++ pd' = fl ++ pd ∧ Inv size ncb (maybeStart s) dn fl' pd' := by
  by_cases ho : s.outstanding = true
  · refine ⟨fl, pd, rfl, ?_⟩
    have : maybeStart s = s := by simp [maybeStart, ho]
    rw [this]
    exact ⟨hd, hc, lenP, lenW, bufP, offP, offS, bufW, offW, cbP, cbW, nP, nW,
      fun h => by simp [ho] at h, busy⟩
  · have hof : s.outstanding = false := by simpa using ho
    have hfl := idle hof
    subst hfl
    by_cases h0 : s.offset = 0
    · refine ⟨[], pd, rfl, ?_⟩
      have : maybeStart s = s := by simp [maybeStart, h0]
      rw [this]
      exact ⟨hd, hc, lenP, lenW, bufP, offP, offS, bufW, offW, cbP, cbW, nP, nW,
        fun _ => ⟨rfl, h0⟩, busy⟩
    · refine ⟨pd, [], by simp, ?_⟩
      have : maybeStart s =
          { s with p := !s.p, offset := 0, outstanding := true, flying := s.offset } := by
        simp [maybeStart, hof, h0]
      rw [this]
      constructor <;> simp_all [bytesOf]
      exact Nat.pos_of_ne_zero h0

theorem inv_write {size ncb : ℕ} {s s' : St κ} {dn fl pd : List (List UInt8 × κ)} {b : List UInt8}
    {k : κ} (hi : Inv size ncb s dn fl pd) (h : asyncWrite size s b k = some s') :
    ∃ fl' pd', fl' ++ pd' = fl ++ pd ++ [(b, k)] ∧ Inv size ncb s' dn fl' pd' := by
  unfold asyncWrite at h
  split at h
  · rename_i hs
    dsimp only at h
    split at h
    · exact absurd h (by simp)
    · rename_i cbs hcb
      rw [hi.cbP] at hcb
      have hins := install_slots (by simpa using hi.nP) hcb
      injection h with h
      rw [← h]
      set t : St κ := { s.set s.p ⟨memcpy (s.d s.p).buffer s.offset b, cbs⟩ with
        offset := s.offset + b.length } with ht
      have tp : t.d t.p = ⟨memcpy (s.d s.p).buffer s.offset b, cbs⟩ := set_self s s.p _
      have tw : t.d (!t.p) = s.d !s.p := set_other s s.p _
      have := inv_start (size := size) (ncb := ncb) (s := t) (dn := dn) (fl := fl)
        (pd := pd ++ [(b, k)]) hi.delivered hi.called
        (by rw [tp]; exact memcpy_len hi.lenP hs) (by rw [tw]; exact hi.lenW)
        (by
          rw [tp]
          show (memcpy _ _ _).take (s.offset + b.length) = _
          rw [memcpy_take hi.lenP hs, hi.bufP, bytesOf_append]
          simp [bytesOf])
        (by
          show s.offset + b.length = _
          rw [bytesOf_append, List.length_append, ← hi.offP]
          simp [bytesOf])
        hs (by rw [tw]; exact hi.bufW) hi.offW
        (by rw [tp]; show cbs = _; rw [hins.2]; simp) (by rw [tw]; exact hi.cbW)
        (by have := hins.1; simp at this ⊢; omega) hi.nW (fun h => (hi.idle h).1) hi.busy
      obtain ⟨fl', pd', h1, h2⟩ := this
      exact ⟨fl', pd', by rw [h1, List.append_assoc], h2⟩
  · exact absurd h (by simp)

/-- The loop over the slots, when callbacks do not write. -/
theorem slotLoop_quiet (size : ℕ) (w : Bool) (s : St κ) (pre post : List (Option κ))
    (hw : (s.d w).callbacks = pre ++ post) :
    slotLoop size (fun _ => []) w post.length pre.length s =
      some { s.set w ⟨(s.d w).buffer, pre ++ post.map fun _ => none⟩ with
        called := s.called ++ waiting post } := by
  induction post generalizing s pre with
  | nil =>
    simp only [List.length_nil, slotLoop, waiting, List.filterMap_nil, List.append_nil, List.map_nil]
    congr 1
    rw [List.append_nil] at hw
    cases s
    simp only [St.set, St.mk.injEq, and_self, and_true]
    funext c
    by_cases h : c = w
    · subst h; simp [← hw]
    · simp [h]
  | cons x xs ih =>
    have hg : (s.d w).callbacks[pre.length]? = some x := by rw [hw]; simp
    simp only [List.length_cons, slotLoop, hg]
    cases x with
    | none =>
      have := ih s (pre ++ [none]) (by rw [hw]; simp)
      simp only [List.length_append, List.length_cons, List.length_nil, Nat.zero_add] at this
      dsimp only
      rw [this]
      simp [waiting]
    | some k =>
      dsimp only [writes]
      have hs : (s.d w).callbacks.set pre.length none = pre ++ [none] ++ xs := by
        rw [hw]; simp
      rw [hs]
      have := ih { s.set w ⟨(s.d w).buffer, pre ++ [none] ++ xs⟩ with called := s.called ++ [k] }
        (pre ++ [none]) (by simp [St.set])
      simp only [List.length_append, List.length_cons, List.length_nil, Nat.zero_add] at this
      show slotLoop size (fun _ => []) w xs.length (pre.length + 1)
        { s.set w ⟨(s.d w).buffer, pre ++ [none] ++ xs⟩ with called := s.called ++ [k] } = _
      rw [this]
      simp only [St.set, waiting, Option.some.injEq, St.mk.injEq, true_and]
      constructor
      · funext c
        by_cases h : c = w
        · simp [h]
        · simp [h]
      · simp

theorem waiting_slots (n : ℕ) (ks : List κ) : waiting (slots n ks) = ks := by
  simp [waiting, slots, List.filterMap_append]

theorem slots_length {n : ℕ} {ks : List κ} (h : ks.length ≤ n) : (slots n ks).length = n := by
  simp [slots]; omega

theorem slots_cleared {n : ℕ} {ks : List κ} (h : ks.length ≤ n) :
    ((slots n ks).map fun _ => (none : Option κ)) = slots n [] := by
  have : ((slots n ks).map fun _ => (none : Option κ)) = List.replicate (slots n ks).length none := by
    simp [List.map_const']
  rw [this, slots_length h]
  simp [slots]

theorem inv_complete {size ncb : ℕ} {s s' : St κ} {dn fl pd : List (List UInt8 × κ)}
    (hi : Inv size ncb s dn fl pd) (h : complete size ncb (fun _ => []) s = some s') :
    ∃ dn' fl' pd', dn' ++ fl' ++ pd' = dn ++ fl ++ pd ∧ Inv size ncb s' dn' fl' pd' := by
  unfold complete at h
  split at h
  · dsimp only at h
    have hl : (slots ncb (fl.map Prod.snd)).length = ncb := slots_length (by simpa using hi.nW)
    have := slotLoop_quiet size (!s.p) { s with
      delivered := s.delivered ++ (s.d !s.p).buffer.take s.flying, outstanding := false,
      flying := 0 } [] (slots ncb (fl.map Prod.snd)) (by simpa using hi.cbW)
    rw [hl, List.length_nil] at this
    rw [this, waiting_slots, slots_cleared (by simpa using hi.nW)] at h
    simp only [Option.map_some, Option.some.injEq, List.nil_append] at h
    rw [← h]
    set t : St κ := { (St.set { s with
        delivered := s.delivered ++ (s.d !s.p).buffer.take s.flying, outstanding := false,
        flying := 0 } (!s.p) ⟨(s.d !s.p).buffer, slots ncb []⟩) with
        called := s.called ++ fl.map Prod.snd } with ht
    have tp : t.d t.p = s.d s.p := by
      show (if s.p = !s.p then _ else s.d s.p) = _
      simp
    have tw : t.d (!t.p) = ⟨(s.d !s.p).buffer, slots ncb []⟩ := by
      show (if (!s.p) = !s.p then _ else s.d !s.p) = _
      simp
    obtain ⟨fl', pd', h1, h2⟩ := inv_start (size := size) (ncb := ncb) (s := t) (dn := dn ++ fl)
      (fl := []) (pd := pd)
      (by show s.delivered ++ _ = _; rw [bytesOf_append, hi.delivered, hi.bufW])
      (by show s.called ++ _ = _; rw [hi.called]; simp)
      (by rw [tp]; exact hi.lenP) (by rw [tw]; exact hi.lenW) (by rw [tp]; exact hi.bufP) hi.offP
      hi.offS (by show List.take 0 _ = _; simp [bytesOf]) (by show 0 = _; simp [bytesOf]) (by rw [tp]; exact hi.cbP)
      (by rw [tw]; rfl) hi.nP (by simp) (fun _ => rfl) (fun h => by simp [ht, St.set] at h)
    exact ⟨dn ++ fl, fl', pd', by rw [List.append_assoc, h1]; simp, h2⟩
  · injection h with h
    subst h
    exact ⟨dn, fl, pd, rfl, hi⟩

theorem inv_run {size ncb : ℕ} {evs : List (Ev κ)} {s s' : St κ} {dn fl pd : List (List UInt8 × κ)}
    (hi : Inv size ncb s dn fl pd) (h : run size ncb (fun _ => []) s evs = some s') :
    ∃ dn' fl' pd', dn' ++ fl' ++ pd' = dn ++ fl ++ pd ++ requests evs ∧
      Inv size ncb s' dn' fl' pd' := by
  induction evs generalizing s dn fl pd with
  | nil =>
    injection h with h
    subst h
    exact ⟨dn, fl, pd, by simp [requests], hi⟩
  | cons e es ih =>
    unfold run at h
    cases e with
    | write b k =>
      rw [show step size ncb (fun _ => []) s (.write b k) = asyncWrite size s b k from rfl] at h
      cases hw : asyncWrite size s b k with
      | none => rw [hw] at h; exact absurd h (by simp)
      | some t =>
        rw [hw] at h
        obtain ⟨fl', pd', e1, i1⟩ := inv_write hi hw
        obtain ⟨dn', fl'', pd'', e2, i2⟩ := ih i1 h
        refine ⟨dn', fl'', pd'', ?_, i2⟩
        rw [e2, List.append_assoc dn, e1]
        simp [requests]
    | complete =>
      rw [show step size ncb (fun _ => []) s .complete = complete size ncb (fun _ => []) s from rfl]
        at h
      cases hw : complete size ncb (fun _ => []) s with
      | none => rw [hw] at h; exact absurd h (by simp)
      | some t =>
        rw [hw] at h
        obtain ⟨dn1, fl1, pd1, e1, i1⟩ := inv_complete hi hw
        obtain ⟨dn', fl'', pd'', e2, i2⟩ := ih i1 h
        refine ⟨dn', fl'', pd'', ?_, i2⟩
        rw [e2, e1]
        simp [requests]

/-- C49.  In any run of writes and completions that does not fail an assertion,
the two buffers keep their size and the offset stays inside of them, and the
bytes sent, the bytes in the buffer being sent and the bytes still in the
buffer in progress are together exactly the bytes written, in order.  Nothing
is lost, repeated or overwritten. -/
theorem C49_bytes (size ncb : ℕ) (evs : List (Ev κ)) (s : St κ)
    (h : run size ncb (fun _ => []) (init size ncb) evs = some s) :
    (∀ b, (s.d b).buffer.length = size) ∧ s.offset ≤ size ∧ s.flying ≤ size ∧
    s.delivered ++ (s.d !s.p).buffer.take s.flying ++ (s.d s.p).buffer.take s.offset =
      bytesOf (requests evs) := by
  obtain ⟨dn, fl, pd, e, i⟩ := inv_run (inv_init size ncb) h
  refine ⟨?_, i.offS, ?_, ?_⟩
  · intro b
    by_cases hb : b = s.p
    · rw [hb]; exact i.lenP
    · have : b = !s.p := by cases b <;> cases hp : s.p <;> simp_all
      rw [this]; exact i.lenW
  · have h1 := congrArg List.length i.bufW
    rw [List.length_take, i.lenW, ← i.offW] at h1
    omega
  · rw [i.delivered, i.bufW, i.bufP, ← bytesOf_append, ← bytesOf_append, e]
    simp

/-- C58.  The callbacks that have been called are exactly those of a first part
of the writes, each once and in order, and at that moment exactly the bytes of
this part have been sent.  When nothing is outstanding, no byte is waiting. -/
theorem C58_callbacks (size ncb : ℕ) (evs : List (Ev κ)) (s : St κ)
    (h : run size ncb (fun _ => []) (init size ncb) evs = some s) :
    ∃ done rest, requests evs = done ++ rest ∧ s.called = done.map Prod.snd ∧
      s.delivered = bytesOf done ∧ (s.outstanding = false → bytesOf rest = []) := by
  obtain ⟨dn, fl, pd, e, i⟩ := inv_run (inv_init size ncb) h
  refine ⟨dn, fl ++ pd, by rw [← List.append_assoc, e]; simp, i.called, i.delivered, ?_⟩
  intro ho
  obtain ⟨h1, h2⟩ := i.idle ho
  have : bytesOf pd = [] := List.eq_nil_of_length_eq_zero (by rw [← i.offP]; exact h2)
  rw [bytesOf_append, this, h1]
  rfl

/-- C49.  A write fails its assertion exactly when the bytes do not fit behind
the bytes that are waiting, or all callback slots are taken. -/
theorem C49_assert (size ncb : ℕ) (evs : List (Ev κ)) (s : St κ) (b : List UInt8) (k : κ)
    (h : run size ncb (fun _ => []) (init size ncb) evs = some s) :
    asyncWrite size s b k = none ↔
      size < s.offset + b.length ∨ (waiting (s.d s.p).callbacks).length = ncb := by
  obtain ⟨dn, fl, pd, e, i⟩ := inv_run (inv_init size ncb) h
  rw [i.cbP, waiting_slots]
  have key : ∀ (n : ℕ) (ks : List κ), ks.length < n → (install (slots n ks) k).isSome = true := by
    intro n ks
    induction ks generalizing n with
    | nil =>
      intro hn
      cases n with
      | zero => simp at hn
      | succ n => simp [slots, install, List.replicate_succ]
    | cons c cs ih =>
      intro hn
      cases n with
      | zero => simp at hn
      | succ n =>
        have := ih n (by simpa using hn)
        have e : slots (n + 1) (c :: cs) = some c :: slots n cs := by simp [slots]
        rw [e]
        simpa [install] using this
  have hn := i.nP
  unfold asyncWrite
  dsimp only
  rw [i.cbP]
  by_cases hs : s.offset + b.length ≤ size
  · rw [if_pos hs]
    cases hc : install (slots ncb (pd.map Prod.snd)) k with
    | none =>
      have := key ncb (pd.map Prod.snd)
      rw [hc] at this
      simp only [List.length_map, true_iff] at this ⊢
      right
      by_contra hne
      exact absurd (this (by omega)) (by simp)
    | some r =>
      have := (install_slots (by simpa using hn) hc).1
      simp only [List.length_map] at this ⊢
      constructor
      · intro h; exact absurd h (by simp)
      · rintro (h | h) <;> omega
  · rw [if_neg hs]
    simp; omega

/-! ## What does not hold -/

/-- A zero length write on an idle writer is never completed by itself: its
callback waits for a later write. -/
theorem C58_empty_write_refuted :
    ∃ s : St ℕ, run 8 2 (fun _ => []) (init 8 2) [.write [] 7, .complete, .complete] = some s ∧
      s.called = [] ∧ s.outstanding = false ∧ waiting (s.d s.p).callbacks = [7] :=
  ⟨_, rfl, by decide, by decide, by decide⟩

/-- A callback that writes three times while it is being called has its third
callback called although those bytes have not been sent. -/
theorem C58_reentrant_refuted :
    let onCall := fun k : ℕ => if k = 0 then [([1], 1), ([2], 2), ([3], 3)] else []
    ∃ s : St ℕ, run 8 4 onCall (init 8 4) [.write [9] 0, .complete] = some s ∧
      s.called = [0, 3] ∧ s.delivered = [9] :=
  ⟨_, rfl, by decide, by decide⟩

/-- A run with several batches: everything arrives. -/
example : ∃ s : St ℕ, run 4 2 (fun _ => []) (init 4 2)
    [.write [1, 2] 0, .write [3] 1, .write [4, 5] 2, .complete, .write [6] 3, .complete, .complete]
    = some s ∧ s.delivered = [1, 2, 3, 4, 5, 6] ∧ s.called = [0, 1, 2, 3] :=
  ⟨_, rfl, by decide, by decide⟩

end Verif.Fw.StreamWriter
