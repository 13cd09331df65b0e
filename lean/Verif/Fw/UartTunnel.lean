import Mathlib.Data.List.Basic
import Mathlib.Tactic.Ring

/-!
# The tunnel of an auxiliary port (C111)

With `aux?.uart.mode` 2 the port passes bytes between its UART and a channel of the diagnostic protocol
(fw/aux_port.h:360-385, 753-777, 779-834, 1129-1133; fw/stm32g4_dma_uart.h:93-144).

The hardware is part of the model: a UART with a receive queue of `f` bytes, a DMA channel that moves received
bytes into one of two buffers of 64 bytes, one that moves bytes of a buffer to the wire.  The stream of the
diagnostic protocol (mjlib) is an environment that completes reads and writes whenever it wants to.
Not modelled: noise and framing errors; the other modes of the UART.
-/

namespace Verif.Fw.UartTunnel

abbrev Bs := List ℕ

/-- `kTunnelBufSize` (fw/aux_port.h:1349). -/
def size : ℕ := 64

/-- The members of `AuxPort` (fw/aux_port.h:1349-1360), the registers of the DMA, and what can be observed:
`wire`, `out`, and what the environment did: `took`, `came`, `lost`. -/
structure St where
  /-- `uart_` has a value -/
  uart : Bool
  /-- `config_.uart.mode == kTunnel` -/
  mode : Bool
  /-- `tunnel_polling_enabled_`; while it is set the receiving DMA is enabled -/
  polling : Bool
  /-- an `AsyncReadSome` on the stream is not completed -/
  reading : Bool
  /-- `tunnel_write_outstanding_` -/
  writing : Bool
  /-- `tunnel_read_buf_`, as far as it is to be sent -/
  rbuf : Bs
  /-- how many of them the DMA moved -/
  moved : ℕ
  /-- the queue of the UART -/
  fifo : Bs
  /-- which buffer is `current_tunnel_write_buf_` -/
  cur : Bool
  /-- the two buffers as far as the DMA filled them since it was started there -/
  bufs : Bool → Bs
  /-- `stream_write_outstanding_`, and which buffer the stream reads -/
  lent : Option (Bool × ℕ)
  /-- bytes sent by the UART -/
  wire : Bs
  /-- bytes sent over the diagnostic channel -/
  out : Bs
  /-- bytes read without error from the diagnostic channel while the tunnel is configured -/
  took : Bs
  /-- bytes received by the UART and not lost in the hardware -/
  came : Bs
  /-- number of bytes lost in the hardware -/
  lost : ℕ

/-- What can happen. -/
inductive Ev
  /-- the UART receives a byte -/
  | rx (b : ℕ)
  /-- the DMA moves a byte to the UART -/
  | move
  /-- the stream completes the read -/
  | data (err : Bool) (d : Bs)
  /-- the stream completes the write -/
  | wrote
  /-- `Poll`, and the bytes received while the DMA is switched off in it -/
  | poll (mid : Bs)
  /-- `HandleConfigUpdate`: whether it makes a UART and whether the mode is the tunnel -/
  | update (uart tunnel : Bool)

def put (g : Bool → Bs) (b : Bool) (x : Bs) : Bool → Bs := fun c => if c = b then x else g c

/-- a byte for the queue of the UART. -/
def queue (f : ℕ) (s : St) (b : ℕ) : St :=
  if s.fifo.length < f then { s with fifo := s.fifo ++ [b], came := s.came ++ [b] } else { s with lost := s.lost + 1 }

/-- a received byte: the DMA takes it if there is room in the buffer. -/
def receive (f : ℕ) (s : St) (b : ℕ) : St :=
  if s.polling = false then s
  else if (s.bufs s.cur).length < size then
    { s with bufs := put s.bufs s.cur (s.bufs s.cur ++ [b]), came := s.came ++ [b] }
  else queue f s b

/-- `HandleTunnelRead` (fw/aux_port.h:761-775); `StartTunnelRead` (:753-759) sets `reading`. -/
def handleRead (s : St) (err : Bool) (d : Bs) : St :=
  if err = false ∧ s.uart = true ∧ s.mode = true then
    { s with reading := false, writing := true, rbuf := d, moved := 0, took := s.took ++ d }
  else { s with rbuf := d, reading := true }

/-- The first half of `Poll` (fw/aux_port.h:362-368). -/
def pollWrite (s : St) : St :=
  if s.writing = true ∧ s.moved = s.rbuf.length then { s with writing := false, reading := true } else s

/-- The second half (fw/aux_port.h:369-383): the filled buffer goes to the stream, the DMA goes on in the other one. -/
def pollRead (f : ℕ) (s : St) (mid : Bs) : St :=
  if (s.bufs s.cur).length ≠ 0 ∧ s.lent = none then
    let s := { s with lent := some (s.cur, (s.bufs s.cur).length) }
    let s := mid.foldl (queue f) s
    { s with cur := !s.cur, bufs := put s.bufs (!s.cur) s.fifo, fifo := [] }
  else mid.foldl (receive f) s

/-- One step. -/
def step (f : ℕ) (s : St) : Ev → St
  | .rx b => receive f s b
  | .move =>
    if s.writing = true then
      match s.rbuf[s.moved]? with
      | some b => { s with wire := s.wire ++ [b], moved := s.moved + 1 }
      | none => s
    else s
  | .data err d => if s.reading = true ∧ d.length ≤ size then handleRead s err d else s
  | .wrote =>
    match s.lent with
    | some (b, n) => { s with lent := none, out := s.out ++ (s.bufs b).take n }
    | none => s
  | .poll mid => if s.polling = true then pollRead f (pollWrite s) mid else s
  /- fw/aux_port.h:779-834 and 1106-1133; the destructor of the UART stops both DMAs -/
  | .update u t =>
    { s with uart := u, mode := t, polling := u && t, writing := false, fifo := [], bufs := put s.bufs s.cur [] }

def run (f : ℕ) (s : St) (es : List Ev) : St := es.foldl (step f) s

/-- After the constructor (fw/aux_port.h:111-113). -/
def start (u t : Bool) : St :=
  { uart := u, mode := t, polling := u && t, reading := true, writing := false, rbuf := [], moved := 0, fifo := [],
    cur := false, bufs := fun _ => [], lent := none, wire := [], out := [], took := [], came := [], lost := 0 }

/-! ## Words of the statements -/

/-- what the UART has still to send. -/
def pending (s : St) : Bs := if s.writing then s.rbuf.drop s.moved else []

/-- what the stream is reading. -/
def lentBytes (s : St) : Bs :=
  match s.lent with
  | some (b, n) => (s.bufs b).take n
  | none => []

/-- what was received and is not yet sent. -/
def waiting (s : St) : Bs := lentBytes s ++ (s.bufs s.cur ++ s.fifo)

def isUpdate : Ev → Bool
  | .update _ _ => true
  | _ => false

/-! ## The invariant -/

structure Inv (f : ℕ) (s : St) : Prop where
  apart : ∀ b n, s.lent = some (b, n) → b = !s.cur
  full : s.fifo ≠ [] → (s.bufs s.cur).length = size
  room : (s.bufs s.cur).length ≤ size
  queued : s.fifo.length ≤ f
  polls : s.polling = (s.uart && s.mode)
  one : (s.reading && s.writing) = false

/-- what a step does to the bytes from the UART: `came` grows by `x`, what is sent or waits grows by `x`. -/
def Grows (s t : St) : Prop :=
  ∃ x, t.came = s.came ++ x ∧ t.out ++ waiting t = s.out ++ waiting s ++ x

theorem Grows.refl (s : St) : Grows s s := ⟨[], by simp, by simp⟩

theorem Grows.trans {s t u : St} (h : Grows s t) (g : Grows t u) : Grows s u := by
  obtain ⟨x, hx, hx'⟩ := h
  obtain ⟨y, hy, hy'⟩ := g
  exact ⟨x ++ y, by rw [hy, hx, List.append_assoc], by rw [hy', hx', List.append_assoc]⟩

/-- the parts that the receiving side does not touch. -/
def SameOut (s t : St) : Prop :=
  t.reading = s.reading ∧ t.writing = s.writing ∧ t.rbuf = s.rbuf ∧ t.moved = s.moved ∧ t.wire = s.wire ∧ t.took = s.took ∧
  t.uart = s.uart ∧ t.mode = s.mode ∧ t.polling = s.polling

theorem SameOut.refl (s : St) : SameOut s s := ⟨rfl, rfl, rfl, rfl, rfl, rfl, rfl, rfl, rfl⟩

theorem SameOut.trans {s t u : St} (h : SameOut s t) (g : SameOut t u) : SameOut s u := by
  obtain ⟨a1, a2, a3, a4, a5, a6, a7, a8, a9⟩ := h
  obtain ⟨b1, b2, b3, b4, b5, b6, b7, b8, b9⟩ := g
  exact ⟨b1.trans a1, b2.trans a2, b3.trans a3, b4.trans a4, b5.trans a5, b6.trans a6, b7.trans a7, b8.trans a8, b9.trans a9⟩

theorem put_self (g : Bool → Bs) (b : Bool) (x : Bs) : put g b x b = x := by simp [put]

theorem put_other (g : Bool → Bs) (b : Bool) (x : Bs) : put g b x (!b) = g (!b) := by
  simp [put]

theorem put_not (g : Bool → Bs) (b : Bool) (x : Bs) : put g (!b) x b = g b := by
  simp [put]

theorem lentBytes_put {f : ℕ} {s : St} (h : Inv f s) (x : Bs) (came : Bs) :
    lentBytes { s with bufs := put s.bufs s.cur x, came := came } = lentBytes s := by
  unfold lentBytes
  cases hl : s.lent with
  | none => rfl
  | some p =>
    obtain ⟨b, n⟩ := p
    have := h.apart b n hl
    subst this
    show ((put s.bufs s.cur x) (!s.cur)).take n = _
    rw [put_other]

theorem receive_spec {f : ℕ} {s : St} (h : Inv f s) (b : ℕ) :
    Inv f (receive f s b) ∧ Grows s (receive f s b) ∧ SameOut s (receive f s b) ∧
      (receive f s b).lent = s.lent ∧ (receive f s b).cur = s.cur ∧
      (receive f s b).bufs (!s.cur) = s.bufs (!s.cur) ∧ s.lost ≤ (receive f s b).lost ∧
      (s.lost < (receive f s b).lost ↔ s.polling = true ∧ (s.bufs s.cur).length = size ∧ s.fifo.length = f) := by
  unfold receive
  by_cases hp : s.polling = false
  · rw [if_pos hp]
    exact ⟨h, .refl s, .refl s, rfl, rfl, rfl, le_refl _, by simp [hp]⟩
  rw [if_neg hp]
  have hp : s.polling = true := by simpa using hp
  by_cases hl : (s.bufs s.cur).length < size
  · rw [if_pos hl]
    have hq : s.fifo = [] := by
      by_contra hne
      have := h.full hne
      omega
    refine ⟨⟨h.apart, fun hne => absurd hq hne, ?_, h.queued, h.polls, h.one⟩, ⟨[b], rfl, ?_⟩, .refl s, rfl, rfl, ?_, le_refl _, ?_⟩
    · show (put s.bufs s.cur _ s.cur).length ≤ size
      rw [put_self, List.length_append]
      simp
      omega
    · show s.out ++ (lentBytes _ ++ (put s.bufs s.cur _ s.cur ++ s.fifo)) = _
      rw [lentBytes_put h, put_self, hq, waiting, hq]
      simp
    · show put s.bufs s.cur _ (!s.cur) = _
      rw [put_other]
    · constructor
      · intro hh
        exact absurd hh (lt_irrefl _)
      · rintro ⟨-, hc, -⟩
        omega
  rw [if_neg hl]
  have hl : (s.bufs s.cur).length = size := by
    have := h.room
    omega
  unfold queue
  by_cases hf : s.fifo.length < f
  · rw [if_pos hf]
    refine ⟨⟨h.apart, fun _ => hl, h.room, ?_, h.polls, h.one⟩, ⟨[b], rfl, ?_⟩, .refl s, rfl, rfl, rfl, le_refl _, ?_⟩
    · show (s.fifo ++ [b]).length ≤ f
      simp
      omega
    · show s.out ++ (lentBytes s ++ (s.bufs s.cur ++ (s.fifo ++ [b]))) = _
      rw [waiting]
      simp
    · constructor
      · intro hh
        exact absurd hh (lt_irrefl _)
      · rintro ⟨-, -, hc⟩
        omega
  · rw [if_neg hf]
    refine ⟨⟨h.apart, h.full, h.room, h.queued, h.polls, h.one⟩, ⟨[], by simp, by simp [waiting, lentBytes]⟩, .refl s,
      rfl, rfl, rfl, Nat.le_succ _, ?_⟩
    have := h.queued
    constructor
    · intro _
      exact ⟨hp, hl, by omega⟩
    · intro _
      exact Nat.lt_succ_self _

theorem receives_spec {f : ℕ} (mid : Bs) : ∀ {s : St}, Inv f s →
    Inv f (mid.foldl (receive f) s) ∧ Grows s (mid.foldl (receive f) s) ∧ SameOut s (mid.foldl (receive f) s) ∧
      (mid.foldl (receive f) s).lent = s.lent ∧ (mid.foldl (receive f) s).cur = s.cur ∧
      (mid.foldl (receive f) s).bufs (!s.cur) = s.bufs (!s.cur) := by
  induction mid with
  | nil => intro s h; exact ⟨h, .refl s, .refl s, rfl, rfl, rfl⟩
  | cons b mid ih =>
    intro s h
    obtain ⟨i1, g1, o1, l1, c1, b1, -⟩ := receive_spec h b
    obtain ⟨i2, g2, o2, l2, c2, b2⟩ := ih i1
    refine ⟨i2, g1.trans g2, o1.trans o2, l2.trans l1, c2.trans c1, ?_⟩
    rw [List.foldl_cons]
    rw [c1] at b2
    exact b2.trans b1

/-- the queue while the DMA is off. -/
theorem queues_spec {f : ℕ} (mid : Bs) : ∀ {s : St}, s.fifo.length ≤ f →
    ∃ x l, mid.foldl (queue f) s = { s with fifo := s.fifo ++ x, came := s.came ++ x, lost := l } ∧
      (s.fifo ++ x).length ≤ f := by
  induction mid with
  | nil => intro s h; exact ⟨[], s.lost, by simp, by simpa using h⟩
  | cons b mid ih =>
    intro s h
    rw [List.foldl_cons]
    unfold queue
    by_cases hf : s.fifo.length < f
    · rw [if_pos hf]
      obtain ⟨x, l, e, hx⟩ := ih (s := { s with fifo := s.fifo ++ [b], came := s.came ++ [b] }) (by simp; omega)
      unfold queue at e
      refine ⟨b :: x, l, ?_, ?_⟩
      · rw [e]
        simp
      · simpa using hx
    · rw [if_neg hf]
      obtain ⟨x, l, e, hx⟩ := ih (s := { s with lost := s.lost + 1 }) h
      unfold queue at e
      exact ⟨x, l, by rw [e], hx⟩

theorem pollRead_spec {f : ℕ} (hf : f ≤ size) {s : St} (h : Inv f s) (mid : Bs) :
    Inv f (pollRead f s mid) ∧ Grows s (pollRead f s mid) ∧ SameOut s (pollRead f s mid) ∧
    (∀ b n, s.lent = some (b, n) → (pollRead f s mid).lent = some (b, n) ∧ (pollRead f s mid).bufs b = s.bufs b) := by
  unfold pollRead
  by_cases hc : (s.bufs s.cur).length ≠ 0 ∧ s.lent = none
  · rw [if_pos hc]
    simp only
    obtain ⟨x, l, e, hx⟩ := queues_spec (f := f) mid (s := { s with lent := some (s.cur, (s.bufs s.cur).length) }) h.queued
    rw [e]
    simp only at hx ⊢
    refine ⟨⟨?_, fun hne => absurd rfl hne, ?_, by simp, h.polls, h.one⟩, ⟨x, rfl, ?_⟩, ⟨rfl, rfl, rfl, rfl, rfl, rfl, rfl, rfl, rfl⟩, ?_⟩
    · intro b n hbn
      simp only [Option.some.injEq, Prod.mk.injEq] at hbn
      rw [← hbn.1]
      simp
    · show (put s.bufs (!s.cur) _ (!s.cur)).length ≤ size
      rw [put_self]
      omega
    · simp only [waiting, lentBytes, hc.2]
      rw [put_self, put_not, List.take_length]
      simp
    · intro b n hbn
      rw [hc.2] at hbn
      cases hbn
  · rw [if_neg hc]
    obtain ⟨i, g, o, l, c, b⟩ := receives_spec mid h
    refine ⟨i, g, o, fun b' n hbn => ⟨by rw [l, hbn], ?_⟩⟩
    have := h.apart b' n hbn
    rw [this, b]

theorem pollWrite_spec {f : ℕ} {s : St} (h : Inv f s) : Inv f (pollWrite s) ∧ Grows s (pollWrite s) ∧
    (pollWrite s).wire = s.wire ∧ (pollWrite s).took = s.took ∧ pending (pollWrite s) = pending s ∧
    (pollWrite s).lent = s.lent ∧ (pollWrite s).bufs = s.bufs ∧
    ((s.reading || s.writing) = ((pollWrite s).reading || (pollWrite s).writing)) := by
  unfold pollWrite
  by_cases hc : s.writing = true ∧ s.moved = s.rbuf.length
  · rw [if_pos hc]
    refine ⟨⟨h.apart, h.full, h.room, h.queued, h.polls, rfl⟩, ⟨[], by simp, by simp [waiting, lentBytes]⟩, rfl, rfl, ?_,
      rfl, rfl, by simp [hc.1]⟩
    simp [pending, hc.1, hc.2]
  · rw [if_neg hc]
    exact ⟨h, .refl s, rfl, rfl, rfl, rfl, rfl, rfl⟩

theorem inv_start (f : ℕ) (u t : Bool) : Inv f (start u t) :=
  ⟨by simp [start], by simp [start], by simp [start], by simp [start], rfl, rfl⟩

theorem inv_step {f : ℕ} (hf : f ≤ size) {s : St} (h : Inv f s) (e : Ev) : Inv f (step f s e) := by
  cases e with
  | rx b => exact (receive_spec h b).1
  | move =>
    simp only [step]
    split
    · split
      · exact ⟨h.apart, h.full, h.room, h.queued, h.polls, h.one⟩
      · exact h
    · exact h
  | data err d =>
    simp only [step]
    split
    · rename_i hr
      unfold handleRead
      split
      · exact ⟨h.apart, h.full, h.room, h.queued, h.polls, rfl⟩
      · refine ⟨h.apart, h.full, h.room, h.queued, h.polls, ?_⟩
        have := h.one
        rw [hr.1] at this
        simpa using this
    · exact h
  | wrote =>
    simp only [step]
    split
    · exact ⟨by simp, h.full, h.room, h.queued, h.polls, h.one⟩
    · exact h
  | poll mid =>
    simp only [step]
    split
    · exact (pollRead_spec hf (pollWrite_spec h).1 mid).1
    · exact h
  | update u t =>
    refine ⟨h.apart, fun hne => absurd rfl hne, ?_, by simp [step], rfl, by simp [step]⟩
    show (put s.bufs s.cur [] s.cur).length ≤ size
    rw [put_self]
    simp

theorem inv_run {f : ℕ} (hf : f ≤ size) (es : List Ev) : ∀ {s : St}, Inv f s → Inv f (run f s es) := by
  induction es with
  | nil => intro s h; exact h
  | cons e es ih => intro s h; exact ih (inv_step hf h e)

/-! ## Properties -/

/-- the bytes from the UART in one step without an update. -/
theorem grows_step {f : ℕ} (hf : f ≤ size) {s : St} (h : Inv f s) (e : Ev) (he : isUpdate e = false) : Grows s (step f s e) := by
  cases e with
  | rx b => exact (receive_spec h b).2.1
  | move =>
    simp only [step]
    split
    · split
      · exact ⟨[], by simp, by simp [waiting, lentBytes]⟩
      · exact .refl s
    · exact .refl s
  | data err d =>
    simp only [step]
    split
    · unfold handleRead
      split <;> exact ⟨[], by simp, by simp [waiting, lentBytes]⟩
    · exact .refl s
  | wrote =>
    simp only [step]
    split
    · rename_i b n hl
      refine ⟨[], by simp, ?_⟩
      simp [waiting, lentBytes, hl]
    · exact .refl s
  | poll mid =>
    simp only [step]
    split
    · exact (pollWrite_spec h).2.1.trans (pollRead_spec hf (pollWrite_spec h).1 mid).2.1
    · exact .refl s
  | update u t => cases he

/-- **C111, from the UART.** As long as the configuration is not changed every byte that the hardware did not lose
goes to the diagnostic channel exactly once and in order: what was sent and what waits is what came. -/
theorem C111_in {f : ℕ} (hf : f ≤ size) (u t : Bool) (es : List Ev) (he : ∀ e ∈ es, isUpdate e = false) :
    (run f (start u t) es).out ++ waiting (run f (start u t) es) = (run f (start u t) es).came := by
  have : ∀ (es : List Ev) (s : St), (∀ e ∈ es, isUpdate e = false) → Inv f s → s.out ++ waiting s = s.came →
      (run f s es).out ++ waiting (run f s es) = (run f s es).came := by
    intro es
    induction es with
    | nil => intro s _ _ h; exact h
    | cons e es ih =>
      intro s he hi h
      refine ih (step f s e) (fun x hx => he x (by simp [hx])) (inv_step hf hi e) ?_
      obtain ⟨x, hx, hx'⟩ := grows_step hf hi e (he e (by simp))
      rw [hx', h, hx]
  exact this es _ he (inv_start f u t) rfl

/-- **C111, changes of the configuration** lose bytes that wait, but never repeat, exchange or invent one, in both
directions; this holds after every sequence of events. -/
theorem C111_order {f : ℕ} (hf : f ≤ size) (u t : Bool) (es : List Ev) :
    ((run f (start u t) es).out ++ waiting (run f (start u t) es)).Sublist (run f (start u t) es).came ∧
    ((run f (start u t) es).wire ++ pending (run f (start u t) es)).Sublist (run f (start u t) es).took := by
  have key : ∀ (s : St) (e : Ev), Inv f s → (s.out ++ waiting s).Sublist s.came ∧ (s.wire ++ pending s).Sublist s.took →
      ((step f s e).out ++ waiting (step f s e)).Sublist (step f s e).came ∧
      ((step f s e).wire ++ pending (step f s e)).Sublist (step f s e).took := by
    intro s e hi ⟨h1, h2⟩
    refine ⟨?_, ?_⟩
    · by_cases he : isUpdate e = false
      · obtain ⟨x, hx, hx'⟩ := grows_step hf hi e he
        rw [hx', hx]
        exact h1.append (List.Sublist.refl x)
      · cases e <;> simp [isUpdate] at he
        rename_i u t
        have : lentBytes (step f s (.update u t)) = lentBytes s := lentBytes_put hi [] s.came
        show (s.out ++ (lentBytes (step f s (.update u t)) ++ (put s.bufs s.cur [] s.cur ++ []))).Sublist s.came
        rw [this, put_self, List.append_nil, List.append_nil]
        refine List.Sublist.trans ?_ h1
        rw [waiting]
        exact (List.Sublist.refl _).append (List.sublist_append_left _ _)
    · have same : ∀ t : St, SameOut s t → (t.wire ++ pending t).Sublist t.took := by
        rintro t ⟨-, a2, a3, a4, a5, a6, -⟩
        rw [pending, a2, a3, a4, a5, a6]
        exact h2
      cases e with
      | rx b => exact same _ (receive_spec hi b).2.2.1
      | move =>
        simp only [step]
        split
        · rename_i hw
          split
          · rename_i b hb
            have : s.rbuf.drop s.moved = b :: s.rbuf.drop (s.moved + 1) := by
              obtain ⟨hlt, hb⟩ := List.getElem?_eq_some_iff.1 hb
              rw [List.drop_eq_getElem_cons hlt, hb]
            simp only [pending, hw, if_true] at h2 ⊢
            rw [this] at h2
            simpa using h2
          · exact h2
        · exact h2
      | data err d =>
        simp only [step]
        split
        · rename_i hr
          have hw : s.writing = false := by
            have := hi.one
            rw [hr.1] at this
            simpa using this
          have h3 : s.wire.Sublist s.took := by simpa [pending, hw] using h2
          unfold handleRead
          split
          · simpa [pending] using h3.append (List.Sublist.refl d)
          · simpa [pending, hw] using h3
        · exact h2
      | wrote =>
        simp only [step]
        split <;> exact h2
      | poll mid =>
        simp only [step]
        split
        · obtain ⟨i, -, w, k, p, -⟩ := pollWrite_spec hi
          obtain ⟨-, a2, a3, a4, a5, a6, -⟩ := (pollRead_spec hf i mid).2.2.1
          rw [pending, a2, a3, a4, a5, a6, w, k]
          rw [pending] at p
          rw [p]
          exact h2
        · exact h2
      | update u t =>
        refine List.Sublist.trans ?_ h2
        show (s.wire ++ []).Sublist _
        rw [List.append_nil]
        exact List.sublist_append_left _ _
  have : ∀ (es : List Ev) (s : St), Inv f s →
      (s.out ++ waiting s).Sublist s.came ∧ (s.wire ++ pending s).Sublist s.took →
      ((run f s es).out ++ waiting (run f s es)).Sublist (run f s es).came ∧
      ((run f s es).wire ++ pending (run f s es)).Sublist (run f s es).took := by
    intro es
    induction es with
    | nil => intro s _ h; exact h
    | cons e es ih => intro s hi h; exact ih _ (inv_step hf hi e) (key s e hi h)
  exact this es _ (inv_start f u t) ⟨by simp [start, waiting, lentBytes], by simp [start, pending]⟩

/-- **C111, to the UART.** As long as the configuration is not changed every byte read from the diagnostic channel is
sent by the UART exactly once and in order; exactly one of a read and a write is under way. -/
theorem C111_out {f : ℕ} (hf : f ≤ size) (u t : Bool) (es : List Ev) (he : ∀ e ∈ es, isUpdate e = false) :
    (run f (start u t) es).wire ++ pending (run f (start u t) es) = (run f (start u t) es).took ∧
    (run f (start u t) es).reading = !(run f (start u t) es).writing := by
  have : ∀ (es : List Ev) (s : St), (∀ e ∈ es, isUpdate e = false) → Inv f s →
      s.wire ++ pending s = s.took ∧ s.reading = (!s.writing) →
      (run f s es).wire ++ pending (run f s es) = (run f s es).took ∧
      (run f s es).reading = !(run f s es).writing := by
    intro es
    induction es with
    | nil => intro s _ _ h; exact h
    | cons e es ih =>
      intro s he hi h
      refine ih (step f s e) (fun x hx => he x (by simp [hx])) (inv_step hf hi e) ?_
      obtain ⟨h2, h3⟩ := h
      have same : ∀ t : St, SameOut s t → t.wire ++ pending t = t.took ∧ t.reading = !t.writing := by
        rintro t ⟨a1, a2, a3, a4, a5, a6, -⟩
        rw [pending, a1, a2, a3, a4, a5, a6]
        exact ⟨h2, h3⟩
      cases e with
      | rx b => exact same _ (receive_spec hi b).2.2.1
      | move =>
        simp only [step]
        split
        · rename_i hw
          split
          · rename_i b hb
            have : s.rbuf.drop s.moved = b :: s.rbuf.drop (s.moved + 1) := by
              obtain ⟨hlt, hb⟩ := List.getElem?_eq_some_iff.1 hb
              rw [List.drop_eq_getElem_cons hlt, hb]
            simp only [pending, hw, if_true] at h2 ⊢
            rw [this] at h2
            exact ⟨by simpa using h2, by rw [h3, hw]⟩
          · exact ⟨h2, h3⟩
        · exact ⟨h2, h3⟩
      | data err d =>
        simp only [step]
        split
        · rename_i hr
          have hw : s.writing = false := by
            have := hi.one
            rw [hr.1] at this
            simpa using this
          have h4 : s.wire = s.took := by simpa [pending, hw] using h2
          unfold handleRead
          split
          · exact ⟨by simp [pending, h4], rfl⟩
          · exact ⟨by simp [pending, hw, h4], by simp [hw]⟩
        · exact ⟨h2, h3⟩
      | wrote =>
        simp only [step]
        split <;> exact ⟨h2, h3⟩
      | poll mid =>
        simp only [step]
        split
        · obtain ⟨i, -, w, k, p, -, -, o⟩ := pollWrite_spec hi
          obtain ⟨a1, a2, a3, a4, a5, a6, -⟩ := (pollRead_spec hf i mid).2.2.1
          rw [pending, a1, a2, a3, a4, a5, a6, w, k]
          refine ⟨?_, ?_⟩
          · rw [pending] at p
            rw [p]
            exact h2
          · have := i.one
            rw [h3] at o
            revert o this
            cases s.writing <;> cases (pollWrite s).reading <;> cases (pollWrite s).writing <;> simp
        · exact ⟨h2, h3⟩
      | update u t =>
        have := he (.update u t) (by simp)
        cases this
  exact this es _ he (inv_start f u t) ⟨rfl, rfl⟩

/-- **C111, buffers.** After every sequence of events, changes of the configuration included: while the stream reads
a buffer nothing that happens changes this buffer. -/
theorem C111_owned {f : ℕ} (hf : f ≤ size) (u t : Bool) (es : List Ev) (b : Bool) (n : ℕ) (e : Ev)
    (h : (run f (start u t) es).lent = some (b, n)) :
    (step f (run f (start u t) es) e).bufs b = (run f (start u t) es).bufs b ∧ n ≤ size := by
  have hi := inv_run hf es (inv_start f u t)
  have hn : ∀ (es : List Ev) (s : St), Inv f s → (∀ b n, s.lent = some (b, n) → n ≤ size) →
      ∀ b n, (run f s es).lent = some (b, n) → n ≤ size := by
    intro es
    induction es with
    | nil => intro s _ h; exact h
    | cons e es ih =>
      intro s hi hs
      refine ih _ (inv_step hf hi e) ?_
      intro b n hl
      cases e with
      | rx x => exact hs b n (by rw [← (receive_spec hi x).2.2.2.1]; exact hl)
      | move =>
        simp only [step] at hl
        split at hl
        · split at hl <;> exact hs b n hl
        · exact hs b n hl
      | data err d =>
        simp only [step] at hl
        split at hl
        · unfold handleRead at hl
          split at hl <;> exact hs b n hl
        · exact hs b n hl
      | wrote =>
        simp only [step] at hl
        split at hl
        · cases hl
        · exact hs b n hl
      | poll mid =>
        simp only [step] at hl
        split at hl
        · have hw := pollWrite_spec hi
          unfold pollRead at hl
          split at hl
          · simp only at hl
            obtain ⟨x, l, e, -⟩ := queues_spec (f := f) mid (s := { pollWrite s with
              lent := some ((pollWrite s).cur, ((pollWrite s).bufs (pollWrite s).cur).length) }) hw.1.queued
            rw [e] at hl
            simp only [Option.some.injEq, Prod.mk.injEq] at hl
            rw [← hl.2]
            exact hw.1.room
          · rw [(receives_spec mid hw.1).2.2.2.1, hw.2.2.2.2.2.1] at hl
            exact hs b n hl
        · exact hs b n hl
      | update u t => exact hs b n hl
  refine ⟨?_, hn es _ (inv_start f u t) (by simp [start]) b n h⟩
  generalize run f (start u t) es = s at h hi
  have hb := hi.apart b n h
  cases e with
  | rx x =>
    subst hb
    exact (receive_spec hi x).2.2.2.2.2.1
  | move =>
    simp only [step]
    split
    · split <;> rfl
    · rfl
  | data err d =>
    simp only [step]
    split
    · unfold handleRead
      split <;> rfl
    · rfl
  | wrote =>
    simp only [step]
    split <;> rfl
  | poll mid =>
    simp only [step]
    split
    · have hw := pollWrite_spec hi
      rw [((pollRead_spec hf hw.1 mid).2.2.2 b n (by rw [hw.2.2.2.2.2.1]; exact h)).2, hw.2.2.2.2.2.2.1]
    · rfl
  | update u t =>
    subst hb
    show put s.bufs s.cur [] (!s.cur) = _
    rw [put_other]

/-- **C111, losses.** Between two calls of `Poll` a byte is lost only when the buffer of 64 bytes and the queue of the UART are full. -/
theorem C111_lost {f : ℕ} (hf : f ≤ size) (u t : Bool) (es : List Ev) (b : ℕ) :
    (run f (start u t) es).lost < (step f (run f (start u t) es) (.rx b)).lost ↔
      (run f (start u t) es).polling = true ∧
      ((run f (start u t) es).bufs (run f (start u t) es).cur).length = 64 ∧ (run f (start u t) es).fifo.length = f :=
  (receive_spec (inv_run hf es (inv_start f u t)) b).2.2.2.2.2.2.2

/-- **C111, progress.** When the stream completes its write, `Poll` runs, and the stream completes again, everything that was received by the time
of `Poll` was sent. -/
theorem C111_flush {f : ℕ} (hf : f ≤ size) (es : List Ev) (he : ∀ e ∈ es, isUpdate e = false)
    (hq : (run f (start true true) es).fifo = []) :
    (run f (start true true) (es ++ [.wrote, .poll [], .wrote])).out = (run f (start true true) es).came := by
  have hin := C111_in hf true true es he
  have hi := inv_run hf es (inv_start f true true)
  have hp : ∀ (es : List Ev) (s : St), (∀ e ∈ es, isUpdate e = false) → Inv f s → s.polling = true →
      (run f s es).polling = true := by
    intro es
    induction es with
    | nil => intro s _ _ h; exact h
    | cons e es ih =>
      intro s he hi h
      refine ih _ (fun x hx => he x (by simp [hx])) (inv_step hf hi e) ?_
      cases e with
      | rx b =>
        obtain ⟨-, -, -, -, -, -, -, -, a9⟩ := (receive_spec hi b).2.2.1
        exact a9.trans h
      | move =>
        simp only [step]
        split
        · split <;> exact h
        · exact h
      | data err d =>
        simp only [step]
        split
        · unfold handleRead
          split <;> exact h
        · exact h
      | wrote =>
        simp only [step]
        split <;> exact h
      | poll mid =>
        simp only [step]
        split
        · obtain ⟨-, -, -, -, -, -, -, -, a9⟩ := (pollRead_spec hf (pollWrite_spec hi).1 mid).2.2.1
          have e : (pollWrite s).polling = s.polling := by
            unfold pollWrite
            split <;> rfl
          exact a9.trans (e.trans h)
        · rename_i hn
          exact absurd h hn
      | update u t =>
        have := he (.update u t) (by simp)
        cases this
  have hpol := hp es _ he (inv_start f true true) rfl
  rw [run, List.foldl_append]
  change (List.foldl (step f) (run f (start true true) es) [.wrote, .poll [], .wrote]).out = _
  generalize run f (start true true) es = s at hin hi hq hpol
  rw [← hin]
  -- the write that is under way
  obtain ⟨s1, hs1, e1, h1, hi1, hq1, hp1⟩ : ∃ s1, s1 = step f s .wrote ∧ s1.out ++ s1.bufs s1.cur = s.out ++ waiting s ∧
      s1.lent = none ∧ Inv f s1 ∧ s1.fifo = [] ∧ s1.polling = true := by
    refine ⟨_, rfl, ?_, ?_, inv_step hf hi _, ?_, ?_⟩
    · simp only [step]
      split
      · rename_i b n hl
        simp [waiting, lentBytes, hl, hq]
      · rename_i hl
        simp [waiting, lentBytes, hl, hq]
    · simp only [step]
      split
      · rfl
      · assumption
    · simp only [step]
      split <;> exact hq
    · simp only [step]
      split <;> exact hpol
  rw [List.foldl_cons, ← hs1, ← e1]
  -- the poll
  have hw := pollWrite_spec hi1
  have hcur : (pollWrite s1).cur = s1.cur ∧ (pollWrite s1).out = s1.out ∧ (pollWrite s1).fifo = s1.fifo := by
    unfold pollWrite
    split <;> exact ⟨rfl, rfl, rfl⟩
  simp only [List.foldl_cons, List.foldl_nil]
  have e2 : step f s1 (.poll []) = pollRead f (pollWrite s1) [] := by simp [step, hp1]
  rw [e2]
  unfold pollRead
  by_cases hz : ((pollWrite s1).bufs (pollWrite s1).cur).length ≠ 0 ∧ (pollWrite s1).lent = none
  · rw [if_pos hz]
    simp only [List.foldl_nil, step]
    rw [put_not, List.take_length, hcur.1, hcur.2.1, hw.2.2.2.2.2.2.1]
  · rw [if_neg hz]
    have hl : (pollWrite s1).lent = none := by rw [hw.2.2.2.2.2.1, h1]
    have hz : ((pollWrite s1).bufs (pollWrite s1).cur).length = 0 := by
      by_contra hne
      exact hz ⟨hne, hl⟩
    rw [hw.2.2.2.2.2.2.1, hcur.1] at hz
    simp only [List.foldl_nil, step, hl]
    rw [hcur.2.1, List.length_eq_zero_iff.1 hz, List.append_nil]

/-- the hypotheses of the theorems: a tunnel that passed bytes in both directions. -/
example : (∀ e ∈ [Ev.rx 1, .poll [2], .data false [7, 8], .move, .rx 3, .wrote, .poll []], isUpdate e = false) ∧
    (run 8 (start true true) [.rx 1, .poll [2], .data false [7, 8], .move, .rx 3, .wrote, .poll []]).lent = some (true, 2) ∧
    (run 8 (start true true) [.rx 1, .poll [2], .data false [7, 8], .move, .rx 3, .wrote, .poll []]).fifo = [] ∧
    (run 8 (start true true) [.rx 1, .poll [2], .data false [7, 8], .move, .rx 3, .wrote, .poll []]).out = [1] ∧
    (run 8 (start true true) [.rx 1, .poll [2], .data false [7, 8], .move, .rx 3, .wrote, .poll []]).wire = [7] := by
  decide +kernel

/-! ## A violation -/

/-- **C111 is violated: a change of the configuration during a write** (fw/aux_port.h:824) forgets the write and
no read is started again: whatever happens later, also further changes of the configuration, nothing is sent by
the UART until the controller is restarted. -/
theorem C111_update_refuted {f : ℕ} (hf : f ≤ size) (u t : Bool) (es : List Ev)
    (h : (run f (start u t) es).writing = true) (u' t' : Bool) (later : List Ev) :
    (run f (start u t) (es ++ .update u' t' :: later)).wire = (run f (start u t) es).wire ∧
    (run f (start u t) (es ++ .update u' t' :: later)).reading = false := by
  have hi := inv_run hf es (inv_start f u t)
  rw [run, List.foldl_append]
  change (run f (step f (run f (start u t) es) (.update u' t')) later).wire = _ ∧
    (run f (step f (run f (start u t) es) (.update u' t')) later).reading = _
  generalize run f (start u t) es = s at h hi
  have hr : s.reading = false := by
    have := hi.one
    rw [h] at this
    simpa using this
  have key : ∀ (es : List Ev) (s : St) (w : Bs), Inv f s → s.wire = w ∧ s.reading = false ∧ s.writing = false →
      (run f s es).wire = w ∧ (run f s es).reading = false := by
    intro es
    induction es with
    | nil => intro s w _ h; exact ⟨h.1, h.2.1⟩
    | cons e es ih =>
      intro s w hi ⟨h1, h2, h3⟩
      refine ih _ w (inv_step hf hi e) ?_
      have same : ∀ t : St, SameOut s t → t.wire = w ∧ t.reading = false ∧ t.writing = false := by
        rintro t ⟨a1, a2, -, -, a5, -⟩
        rw [a1, a2, a5]
        exact ⟨h1, h2, h3⟩
      cases e with
      | rx b => exact same _ (receive_spec hi b).2.2.1
      | move =>
        simp only [step, h3]
        exact ⟨h1, h2, h3⟩
      | data err d =>
        simp only [step, h2]
        exact ⟨h1, h2, h3⟩
      | wrote =>
        simp only [step]
        split <;> exact ⟨h1, h2, h3⟩
      | poll mid =>
        simp only [step]
        split
        · have e : pollWrite s = s := by simp [pollWrite, h3]
          rw [e]
          exact same _ (pollRead_spec hf hi mid).2.2.1
        · exact ⟨h1, h2, h3⟩
      | update u t => exact ⟨h1, h2, rfl⟩
  exact key later _ _ (inv_step hf hi _) ⟨rfl, hr, rfl⟩

/-- the hypothesis is met after one message. -/
example : (run 8 (start true true) [.data false [7, 8], .move]).writing = true := by decide +kernel

/-- Without the violation: a change of the configuration while no write is under way leaves the read under way. -/
theorem C111_update_partial {f : ℕ} (hf : f ≤ size) (u t : Bool) (es : List Ev)
    (h : (run f (start u t) es).reading = true) (u' t' : Bool) (d : Bs) (hd : d.length ≤ 64) :
    (run f (start u t) (es ++ [.update u' t', .data false d])).writing = (u' && t') ∧
    (run f (start u t) (es ++ [.update u' t', .data false d])).reading = !(u' && t') := by
  have hi := inv_run hf es (inv_start f u t)
  rw [run, List.foldl_append]
  change (run f (run f (start u t) es) [.update u' t', .data false d]).writing = _ ∧
    (run f (run f (start u t) es) [.update u' t', .data false d]).reading = _
  generalize run f (start u t) es = s at h hi
  simp only [run, List.foldl_cons, List.foldl_nil, step, h, size, hd, handleRead]
  cases u' <;> cases t' <;> simp

example : (run 8 (start true true) [.data false [7], .move, .poll []]).reading = true := by decide +kernel

end Verif.Fw.UartTunnel
