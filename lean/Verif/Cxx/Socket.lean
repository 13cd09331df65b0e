import Verif.Cxx.SerialLine
import Mathlib.Tactic.Ring
import Mathlib.Data.Nat.Bitwise

/-!
# The C++ library: socketcan, the event loop, and which transport is used

Model of `Socketcan`, `ThreadedEventLoop`, the factories and `TransportRegistry` in
`lib/cpp/mjbots/moteus/moteus_transport.h`, and of `ArgumentProcessHelper` and `SetPositionWaitComplete` in
`moteus.h`.

What Linux does with a frame is part of the model: a write of the size of a `canfd_frame` is a CAN-FD frame,
the flag 31 of the identifier selects the extended format, and the driver fills a length that CAN-FD does not
have up with the following bytes of the structure.

Not modelled: failing system calls while a transport is used (they end the program), the texts of errors, `--help`.

Property C112.
-/

namespace Verif.Cxx.Socket

open Serial (Frame Toggle roundUpDlc)

/-! ## Model: frames -/

/-- `struct canfd_frame`: `data` are the first `len` bytes, the other ones of the 64 are 0 (line 823). -/
structure Canfd where
  canId : ℕ
  fdf : Bool
  brs : Bool
  data : List ℕ
  deriving DecidableEq

/-- `CHILD_SendCanFdFrame` (lines 822-846): what is written. -/
def send (disableBrs : Bool) (f : Frame) : Canfd where
  canId := if f.id ≥ 0x7ff then f.id ||| 1 <<< 31 else f.id
  data := f.data
  fdf := decide (f.fd = .default ∨ f.fd = .forceOn)
  brs := decide ((f.brs = .default ∧ disableBrs = false) ∨ f.brs = .forceOn)

/-- A frame on the bus. -/
structure Bus where
  ext : Bool
  id : ℕ
  fd : Bool
  brs : Bool
  data : List ℕ
  deriving DecidableEq

/-- What Linux makes of a write of `sizeof(struct canfd_frame)` bytes. -/
def onBus (c : Canfd) : Bus where
  ext := c.canId.testBit 31
  id := if c.canId.testBit 31 then c.canId % 2 ^ 29 else c.canId % 2 ^ 11
  fd := true
  brs := c.brs
  data := c.data ++ List.replicate (roundUpDlc c.data.length - c.data.length) 0

/-- What Linux delivers for a frame of the bus. -/
def delivered (b : Bus) : Canfd where
  canId := if b.ext then b.id + 2 ^ 31 else b.id
  fdf := b.fd
  brs := b.brs
  data := b.data

/-- `CHILD_ConsumeData` (lines 848-885): the frame that is added to the replies. -/
def receive (c : Canfd) : Frame where
  id := c.canId &&& 0x1fffffff
  data := c.data
  brs := if c.brs then .forceOn else .forceOff
  fd := if c.fdf then .forceOn else .forceOff

/-! ## Model: the event loop -/

/-- `event_queue_`, whether the thread has ended, and what was called. -/
structure Loop (α : Type) where
  queue : List α := []
  ended : Bool := false
  ran : List α := []

inductive Act (α : Type)
  /-- `Post` from any thread -/
  | post (a : α)
  /-- the thread calls the first of the queue, which posts these -/
  | run (inner : List α)
  /-- the destructor -/
  | close

variable {α : Type}

/-- `Post` (lines 176-184): whether it throws, and the queue. -/
def post (l : Loop α) (a : α) : Bool × Loop α :=
  (decide (2 < (l.queue ++ [a]).length), { l with queue := l.queue ++ [a] })

/-- one thing that happens; `CHILD_Run` (lines 187-209) holds the lock while it calls. -/
def act (l : Loop α) : Act α → Loop α
  | .post a => (post l a).2
  | .run inner =>
    if l.ended then l
    else match l.queue with
      | [] => l
      | a :: q => inner.foldl (fun l b => (post l b).2) { l with queue := q, ran := l.ran ++ [a] }
  | .close => { l with ended := true }

def runs (l : Loop α) (as : List (Act α)) : Loop α := as.foldl act l

/-! ## Model: which transport -/

inductive Transport
  | fdcanusb (device : String) (disableBrs : Bool)
  | socketcan (iface : String) (disableBrs ignore : Bool)
  deriving DecidableEq

/-- `std::find` and `erase` of an option without a value. -/
def takeFlag (name : String) (args : List String) : Bool × List String := (decide (name ∈ args), args.erase name)

/-- the same for an option with a value; `none` if it is the last argument. -/
def takeValue (name : String) : List String → Option (Option String × List String)
  | [] => some (none, [])
  | a :: l =>
    if a = name then
      match l with
      | v :: l => some (some v, l)
      | [] => none
    else (takeValue name l).map fun p => (p.1, a :: p.2)

inductive Kind
  | fdcanusb | socketcan
  deriving DecidableEq

/-- `FdcanusbFactory::make` (938-963) and `SocketcanFactory::make` (991-1024); `works` says which transports
can be opened. -/
def make (works : Transport → Bool) : Kind → List String → Option (Transport × List String)
  | .fdcanusb, args =>
    let b := takeFlag "--can-disable-brs" args
    (takeValue "--fdcanusb" b.2).bind fun d =>
      let t := Transport.fdcanusb (d.1.getD "") b.1
      if works t then some (t, d.2) else none
  | .socketcan, args =>
    let b := takeFlag "--can-disable-brs" args
    (takeValue "--socketcan-iface" b.2).bind fun d =>
      let e := takeFlag "--socketcan-ignore-errors" d.2
      let t := Transport.socketcan (d.1.getD "can0") b.1 e.1
      if works t then some (t, e.2) else none

/-- `is_args_set` (972-977, 1034-1040). -/
def isSet : Kind → List String → Bool
  | .fdcanusb, args => decide ("--fdcanusb" ∈ args)
  | .socketcan, args => decide ("--socketcan-iface" ∈ args) || decide ("--socketcan-ignore-errors" ∈ args)

def name : Kind → String
  | .fdcanusb => "fdcanusb"
  | .socketcan => "socketcan"

/-- the registered factories (1129-1134); this is also their order by priority. -/
def items : List Kind := [.fdcanusb, .socketcan]

/-- `TransportRegistry::make` (1081-1126). -/
def choose (works : Transport → Bool) (args : List String) : Option (Transport × List String) :=
  (takeValue "--force-transport" args).bind fun p =>
    let try_ := match p.1 with
      | some n => items.filter fun k => name k = n
      | none => if (items.filter fun k => isSet k args) = [] then items else items.filter fun k => isSet k args
    try_.findSome? fun k => make works k p.2

/-- `ArgumentProcessHelper` (`moteus.h` 838-846): the transport of the program, and the arguments that are left. -/
def process (works : Transport → Bool) (g : Option Transport) (args : List String) : Option (Transport × List String) :=
  match g with
  | some t => some (t, args)
  | none => choose works args

/-! ## Model: waiting for the end of a motion -/

/-- `SetPositionWaitComplete` (`moteus.h` 227-251): the reply to each command (`none` without one, else
`trajectory_complete`); the number of the command with whose reply it returns. -/
def wait : ℕ → List (Option Bool) → Option ℕ
  | _, [] => none
  | count, r :: l =>
    let count := if r.isSome then count - 1 else count
    if count = 0 ∧ r = some true then some 0 else (wait count l).map (· + 1)

/-! ## Specification -/

namespace Spec

/-- the options of the transports. -/
def options : List String :=
  ["--force-transport", "--can-disable-brs", "--fdcanusb", "--socketcan-iface", "--socketcan-ignore-errors"]

/-- at command `k` the motion is reported as complete, and there was a reply before. -/
def Ends (l : List (Option Bool)) (k : ℕ) : Prop := l[k]? = some (some true) ∧ ∃ j b, j < k ∧ l[j]? = some (some b)

/-- everything that was posted, in order. -/
def posted (l : Loop α) : List (Act α) → List α
  | [] => []
  | .post a :: as => a :: posted (act l (.post a)) as
  | .run inner :: as => (if l.ended ∨ l.queue = [] then [] else inner) ++ posted (act l (.run inner)) as
  | .close :: as => posted (act l .close) as

end Spec

/-! ## Proofs -/

private theorem or_flag (n : ℕ) (h : n < 2 ^ 29) : n ||| 1 <<< 31 = n + 2 ^ 31 := by
  have h : n < 2 ^ 31 := lt_of_lt_of_le h (by norm_num)
  have e := Nat.two_pow_add_eq_or_of_lt h 1
  rw [Nat.mul_one] at e
  rw [Nat.shiftLeft_eq, Nat.one_mul, Nat.lor_comm, ← e, Nat.add_comm]

private theorem bit_high (n : ℕ) (h : n < 2 ^ 29) : (n + 2 ^ 31).testBit 31 = true := by
  rw [Nat.add_comm, Nat.testBit_two_pow_add_eq]
  rw [Nat.testBit_lt_two_pow (lt_of_lt_of_le h (by norm_num))]
  rfl

/-- **C112, sending.** A frame goes out with its identifier, its data and zeros up to the next length of
CAN-FD; the bit rate is switched by default unless it is disabled. -/
theorem C112_send (disableBrs : Bool) (f : Frame) (hid : f.id < 2 ^ 29) :
    (onBus (send disableBrs f)).id = f.id ∧
    ((onBus (send disableBrs f)).ext = true ↔ 0x7ff ≤ f.id) ∧
    (onBus (send disableBrs f)).data = f.data ++ List.replicate (roundUpDlc f.data.length - f.data.length) 0 ∧
    ((onBus (send disableBrs f)).brs = true ↔ f.brs = .forceOn ∨ (f.brs = .default ∧ disableBrs = false)) := by
  refine ⟨?_, ?_, rfl, ?_⟩
  · by_cases h : f.id ≥ 0x7ff
    · simp only [onBus, send, if_pos h, or_flag f.id hid]
      rw [if_pos (bit_high f.id hid)]
      have : f.id + 2 ^ 31 = f.id + 2 ^ 29 * 4 := by norm_num
      rw [this, Nat.add_mul_mod_self_left, Nat.mod_eq_of_lt hid]
    · simp only [onBus, send, if_neg h]
      have h1 : f.id < 2 ^ 11 := by
        norm_num
        omega
      rw [Nat.testBit_lt_two_pow (lt_of_lt_of_le h1 (by norm_num)), if_neg (by simp), Nat.mod_eq_of_lt h1]
  · by_cases h : f.id ≥ 0x7ff
    · simp only [onBus, send, if_pos h, or_flag f.id hid, bit_high f.id hid]
      simpa using h
    · simp only [onBus, send, if_neg h]
      have h1 : f.id < 2 ^ 31 := lt_of_lt_of_le hid (by norm_num)
      rw [Nat.testBit_lt_two_pow h1]
      constructor
      · intro hh
        cases hh
      · intro hh
        exact absurd hh h
  · simp only [onBus, send, decide_eq_true_eq]
    tauto

/-- **C112, receiving.** A frame of the bus arrives with its identifier, its data and its flags. -/
theorem C112_receive (b : Bus) (h : b.id < 2 ^ 29) :
    (receive (delivered b)).id = b.id ∧ (receive (delivered b)).data = b.data ∧
    ((receive (delivered b)).brs = .forceOn ↔ b.brs = true) ∧ ((receive (delivered b)).fd = .forceOn ↔ b.fd = true) := by
  refine ⟨?_, rfl, ?_, ?_⟩
  · have e : (0x1fffffff : ℕ) = 2 ^ 29 - 1 := by norm_num
    simp only [receive, delivered]
    rw [e, Nat.and_two_pow_sub_one_eq_mod]
    split
    · have : b.id + 2 ^ 31 = b.id + 2 ^ 29 * 4 := by norm_num
      rw [this, Nat.add_mul_mod_self_left, Nat.mod_eq_of_lt h]
    · rw [Nat.mod_eq_of_lt h]
  · simp only [receive, delivered]
    by_cases hb : b.brs = true <;> simp [hb]
  · simp only [receive, delivered]
    by_cases hb : b.fd = true <;> simp [hb]

/-- the hypothesis: the identifier of a query to controller 1. -/
example : ({ id := 0x8001, data := [1, 0, 10] } : Frame).id < 2 ^ 29 := by decide

/-- **C112 is violated: the identifier 0x7ff** is a standard one but sent as an extended one. -/
theorem C112_standard_refuted : (0x7ff : ℕ) < 2 ^ 11 ∧ (onBus (send false { id := 0x7ff, data := [1] })).ext = true := by
  decide +kernel

/-- **C112 is violated: a frame in classic format** (`fdcan_frame = kForceOff`) is sent in CAN-FD format, whatever it is. -/
theorem C112_classic_refuted (disableBrs : Bool) (f : Frame) : (onBus (send disableBrs f)).fd = true := rfl

/-- **C112 is violated: padding.** Frames whose length CAN-FD does not have are filled up with zeros (a command to write
registers) and not with the "no operation" of the protocol as the fdcanusb transport does. -/
theorem C112_padding_refuted :
    (onBus (send false { id := 0x8001, data := [1, 0, 10, 0x14, 4, 0, 0x13, 0xd, 0x11, 0] })).data =
      [1, 0, 10, 0x14, 4, 0, 0x13, 0xd, 0x11, 0, 0, 0] ∧
    Serial.sendLine false { id := 0x8001, data := [1, 0, 10, 0x14, 4, 0, 0x13, 0xd, 0x11, 0] } =
      some "can send 8001 01000a140400130d11005050\n".toList := by
  decide +kernel

/-- **C112 is violated: `--can-disable-brs`** does not hold for frames that ask for the switch; with a fdcanusb it does. -/
theorem C112_brs_refuted :
    (onBus (send true { id := 1, data := [], brs := .forceOn })).brs = true ∧
    Serial.sendLine true { id := 1, data := [], brs := .forceOn } = some "can send 0001  b\n".toList := by
  decide +kernel

private theorem posts_queue (inner : List α) : ∀ l : Loop α,
    inner.foldl (fun l b => (post l b).2) l = { l with queue := l.queue ++ inner } := by
  induction inner with
  | nil => intro l; simp
  | cons b inner ih =>
    intro l
    rw [List.foldl_cons, ih]
    simp [post]

/-- **C112, the event loop.** Whatever happens, the callbacks are called at most once and in the order in which
they were posted: those called and those in the queue are those that were posted. -/
theorem C112_order (as : List (Act α)) : ∀ l : Loop α,
    (runs l as).ran ++ (runs l as).queue = l.ran ++ l.queue ++ Spec.posted l as := by
  induction as with
  | nil => intro l; simp [runs, Spec.posted]
  | cons a as ih =>
    intro l
    have := ih (act l a)
    rw [show runs l (a :: as) = runs (act l a) as from rfl, this]
    cases a with
    | post x => simp [act, post, Spec.posted]
    | run inner =>
      simp only [act, Spec.posted]
      by_cases he : l.ended
      · simp [he]
      · cases hq : l.queue with
        | nil => simp [he, hq]
        | cons x q =>
          simp [he, posts_queue]
    | close => simp [act, Spec.posted]

/-- **C112, progress of the event loop.** A callback in the queue is called after as many calls as there are before it. -/
theorem C112_called (l : Loop α) (h : l.ended = false) (inner : List (List α)) (n : ℕ) (hn : inner.length = n)
    (hq : n ≤ l.queue.length) : l.ran ++ l.queue.take n <+: (runs l (inner.map .run)).ran := by
  induction inner generalizing l n with
  | nil =>
    subst hn
    simp [runs]
  | cons i inner ih =>
    subst hn
    cases hq' : l.queue with
    | nil => rw [hq'] at hq; simp at hq
    | cons x q =>
      have e : act l (.run i) = { l with queue := q ++ i, ran := l.ran ++ [x] } := by
        simp [act, h, hq', posts_queue]
      rw [List.map_cons, show runs l (.run i :: inner.map .run) = runs (act l (.run i)) (inner.map .run) from rfl, e]
      have hl : inner.length ≤ q.length := by
        rw [hq'] at hq
        simpa using hq
      refine List.IsPrefix.trans ?_ (ih { l with queue := q ++ i, ran := l.ran ++ [x] } h inner.length rfl (by simp; omega))
      simp [List.take_append_of_le_length hl]

example : ((runs {} [.post 1, .post 2] : Loop ℕ).ended = false) ∧ 2 ≤ (runs {} [.post 1, .post 2] : Loop ℕ).queue.length := by
  decide

/-- **C112, refusals.** `Post` throws exactly when two callbacks wait already. -/
theorem C112_throws (l : Loop α) (a : α) : (post l a).1 = true ↔ 2 ≤ l.queue.length := by
  simp [post]
  omega

/-- **C112 is violated: a cycle that is refused** by an exception of `Post` stays in the queue and is carried out later. -/
theorem C112_refused_refuted :
    (post (runs {} [.post 1, .post 2]) 3).1 = true ∧
    (runs {} [.post 1, .post 2, .post 3, .run [], .run [], .run []] : Loop ℕ).ran = [1, 2, 3] := by
  decide

/-- **C112 is violated: a cycle in the queue when the transport is destroyed** is never called back, so that a blocking
call waits for ever: whatever happens later. -/
theorem C112_closed_refuted (as : List (Act α)) (l : Loop α) (h : l.ended = true) : (runs l as).ran = l.ran := by
  induction as generalizing l with
  | nil => rfl
  | cons a as ih =>
    rw [show runs l (a :: as) = runs (act l a) as from rfl]
    cases a with
    | post x => exact ih _ h
    | run inner =>
      have : act l (.run inner) = l := by simp [act, h]
      rw [this]
      exact ih _ h
    | close => exact ih _ rfl

example : (runs {} [.post 1, .close] : Loop ℕ).ended = true ∧ (runs {} [.post 1, .close] : Loop ℕ).queue = [1] := by decide

/-! ### the choice of a transport -/

private theorem takeValue_cons (n a : String) (l : List String) : takeValue n (a :: l) =
    if a = n then (match l with
      | v :: l => some (some v, l)
      | [] => none)
    else (takeValue n l).map fun p => (p.1, a :: p.2) := by
  rw [takeValue.eq_def]

private theorem takeValue_absent {n : String} {args : List String} (h : n ∉ args) : takeValue n args = some (none, args) := by
  induction args with
  | nil => rfl
  | cons a l ih =>
    simp only [List.mem_cons, not_or] at h
    rw [takeValue_cons, if_neg (fun e => h.1 e.symm), ih h.2]
    rfl

private theorem takeValue_present {n : String} {a : List String} (h : n ∉ a) (v : String) (b : List String) :
    takeValue n (a ++ n :: v :: b) = some (some v, a ++ b) := by
  induction a with
  | nil => simp [takeValue]
  | cons x a ih =>
    simp only [List.mem_cons, not_or] at h
    rw [List.cons_append, takeValue_cons, if_neg (fun e => h.1 e.symm), ih h.2]
    rfl

private theorem takeValue_sublist {n : String} : ∀ {args : List String} {p : Option String × List String},
    takeValue n args = some p → p.2.Sublist args := by
  intro args
  induction args with
  | nil =>
    intro p h
    simp only [takeValue, Option.some.injEq] at h
    subst h
    exact List.Sublist.refl _
  | cons a l ih =>
    intro p h
    rw [takeValue_cons] at h
    split at h
    · cases l with
      | nil => simp at h
      | cons v l =>
        simp only [Option.some.injEq] at h
        subst h
        exact ((List.Sublist.refl l).cons v).cons a
    · obtain ⟨q, hq, rfl⟩ := Option.map_eq_some_iff.1 h
      exact (ih hq).cons_cons a

private theorem make_sublist {works : Transport → Bool} {k : Kind} {args : List String} {t : Transport} {rest : List String}
    (h : make works k args = some (t, rest)) : rest.Sublist args ∧ works t = true := by
  cases k with
  | fdcanusb =>
    simp only [make, Option.bind_eq_some_iff] at h
    obtain ⟨d, hd, h⟩ := h
    split at h
    · rename_i hw
      simp only [Option.some.injEq, Prod.mk.injEq] at h
      obtain ⟨rfl, rfl⟩ := h
      exact ⟨(takeValue_sublist hd).trans List.erase_sublist, hw⟩
    · cases h
  | socketcan =>
    simp only [make, Option.bind_eq_some_iff] at h
    obtain ⟨d, hd, h⟩ := h
    split at h
    · rename_i hw
      simp only [Option.some.injEq, Prod.mk.injEq] at h
      obtain ⟨rfl, rfl⟩ := h
      exact ⟨(List.erase_sublist.trans (takeValue_sublist hd)).trans List.erase_sublist, hw⟩
    · cases h

private theorem choose_make {works : Transport → Bool} {args : List String} {t : Transport} {rest : List String}
    (h : choose works args = some (t, rest)) : ∃ k p, takeValue "--force-transport" args = some p ∧
      make works k p.2 = some (t, rest) := by
  simp only [choose, Option.bind_eq_some_iff] at h
  obtain ⟨p, hp, h⟩ := h
  obtain ⟨k, -, hk⟩ := List.exists_of_findSome?_eq_some h
  exact ⟨k, p, hp, hk⟩

/-- **C112, the choice.** A transport that is chosen could be opened; the arguments that are returned are those of the
command line, some of them left out, in the same order. -/
theorem C112_choice {works : Transport → Bool} {args : List String} {t : Transport} {rest : List String}
    (h : choose works args = some (t, rest)) : works t = true ∧ rest.Sublist args := by
  obtain ⟨k, p, hp, hk⟩ := choose_make h
  exact ⟨(make_sublist hk).2, (make_sublist hk).1.trans (takeValue_sublist hp)⟩

private theorem make_kind {works : Transport → Bool} {k : Kind} {args : List String} {t : Transport} {rest : List String}
    (h : make works k args = some (t, rest)) :
    (k = .fdcanusb ↔ ∃ d b, t = .fdcanusb d b) ∧ (k = .socketcan ↔ ∃ i b e, t = .socketcan i b e) := by
  cases k with
  | fdcanusb =>
    simp only [make, Option.bind_eq_some_iff] at h
    obtain ⟨d, hd, h⟩ := h
    split at h
    · simp only [Option.some.injEq, Prod.mk.injEq] at h
      obtain ⟨rfl, rfl⟩ := h
      simp
    · cases h
  | socketcan =>
    simp only [make, Option.bind_eq_some_iff] at h
    obtain ⟨d, hd, h⟩ := h
    split at h
    · simp only [Option.some.injEq, Prod.mk.injEq] at h
      obtain ⟨rfl, rfl⟩ := h
      simp
    · cases h

/-- **C112, the forced transport.** With `--force-transport` only the transport of that name is used. -/
theorem C112_forced {works : Transport → Bool} {a b : List String} (ha : "--force-transport" ∉ a) {n : String}
    {t : Transport} {rest : List String} (h : choose works (a ++ "--force-transport" :: n :: b) = some (t, rest)) :
    (n = "fdcanusb" ∧ ∃ d b, t = .fdcanusb d b) ∨ (n = "socketcan" ∧ ∃ i b e, t = .socketcan i b e) := by
  simp only [choose, takeValue_present ha, Option.bind_some] at h
  obtain ⟨k, hk, hm⟩ := List.exists_of_findSome?_eq_some h
  rw [List.mem_filter] at hk
  have hn : name k = n := by simpa using hk.2
  cases k with
  | fdcanusb => exact Or.inl ⟨hn.symm, (make_kind hm).1.1 rfl⟩
  | socketcan => exact Or.inr ⟨hn.symm, (make_kind hm).2.1 rfl⟩

example : choose (fun _ => true) (["prog"] ++ "--force-transport" :: "socketcan" :: ["-x"]) =
    some (.socketcan "can0" false false, ["prog", "-x"]) := by decide +kernel

/-- **C112, options decide.** If only options of one transport are given no other one is used, also if it cannot be opened. -/
theorem C112_options {works : Transport → Bool} {args : List String} (hf : "--force-transport" ∉ args)
    {t : Transport} {rest : List String} (h : choose works args = some (t, rest)) :
    ("--fdcanusb" ∈ args → "--socketcan-iface" ∉ args → "--socketcan-ignore-errors" ∉ args → ∃ d b, t = .fdcanusb d b) ∧
    ("--fdcanusb" ∉ args → "--socketcan-iface" ∈ args ∨ "--socketcan-ignore-errors" ∈ args →
      ∃ i b e, t = .socketcan i b e) := by
  simp only [choose, takeValue_absent hf, Option.bind_some] at h
  obtain ⟨k, hk, hm⟩ := List.exists_of_findSome?_eq_some h
  constructor
  · intro h1 h2 h3
    rw [if_neg (by simp [items, isSet, h1]), List.mem_filter] at hk
    cases k with
    | fdcanusb => exact (make_kind hm).1.1 rfl
    | socketcan => simp [isSet, h2, h3] at hk
  · intro h1 h2
    have hs : isSet .socketcan args = true := by simpa [isSet] using h2
    rw [if_neg (by simp [items, hs]), List.mem_filter] at hk
    cases k with
    | fdcanusb => simp [isSet, h1] at hk
    | socketcan => exact (make_kind hm).2.1 rfl

example : choose (fun t => decide (t = .socketcan "can1" true false)) ["prog", "--socketcan-iface", "can1", "--can-disable-brs", "-x"] =
    some (.socketcan "can1" true false, ["prog", "-x"]) := by decide +kernel

/-- **C112, the bit rate switch** is disabled in the transport that is chosen exactly if the option is given. -/
theorem C112_brs_option {works : Transport → Bool} {args : List String} (hf : "--force-transport" ∉ args)
    {t : Transport} {rest : List String} (h : choose works args = some (t, rest)) :
    (∀ d b, t = .fdcanusb d b → (b = true ↔ "--can-disable-brs" ∈ args)) ∧
    (∀ i b e, t = .socketcan i b e → (b = true ↔ "--can-disable-brs" ∈ args)) := by
  obtain ⟨k, p, hp, hm⟩ := choose_make h
  rw [takeValue_absent hf, Option.some.injEq] at hp
  subst hp
  cases k with
  | fdcanusb =>
    simp only [make, Option.bind_eq_some_iff] at hm
    obtain ⟨d, -, hm⟩ := hm
    split at hm
    · simp only [Option.some.injEq, Prod.mk.injEq] at hm
      obtain ⟨rfl, rfl⟩ := hm
      simp [takeFlag]
    · cases hm
  | socketcan =>
    simp only [make, Option.bind_eq_some_iff] at hm
    obtain ⟨d, -, hm⟩ := hm
    split at hm
    · simp only [Option.some.injEq, Prod.mk.injEq] at hm
      obtain ⟨rfl, rfl⟩ := hm
      simp [takeFlag]
    · cases hm

example : choose (fun _ => true) ["prog", "--can-disable-brs", "--fdcanusb", "/dev/x"] = some (.fdcanusb "/dev/x" true, ["prog"]) := by
  decide +kernel

/-- **C112, without options** the fdcanusb is used if there is one, else the interface can0; all arguments are returned. -/
theorem C112_default (works : Transport → Bool) {args : List String} (h : ∀ o ∈ Spec.options, o ∉ args) :
    choose works args =
      if works (.fdcanusb "" false) then some (.fdcanusb "" false, args)
      else if works (.socketcan "can0" false false) then some (.socketcan "can0" false false, args) else none := by
  have h1 := h "--force-transport" (by simp [Spec.options])
  have h2 := h "--can-disable-brs" (by simp [Spec.options])
  have h3 := h "--fdcanusb" (by simp [Spec.options])
  have h4 := h "--socketcan-iface" (by simp [Spec.options])
  have h5 := h "--socketcan-ignore-errors" (by simp [Spec.options])
  simp only [choose, takeValue_absent h1, Option.bind_some]
  rw [if_pos (by simp [items, isSet, h3, h4, h5])]
  have e1 : make works .fdcanusb args = if works (.fdcanusb "" false) then some (.fdcanusb "" false, args) else none := by
    simp [make, takeFlag, h2, List.erase_of_not_mem h2, takeValue_absent h3]
  have e2 : make works .socketcan args =
      if works (.socketcan "can0" false false) then some (.socketcan "can0" false false, args) else none := by
    simp [make, takeFlag, h2, h5, List.erase_of_not_mem h2, List.erase_of_not_mem h5, takeValue_absent h4]
  simp only [items, List.findSome?_cons, List.findSome?_nil, e1, e2]
  by_cases w : works (.fdcanusb "" false)
  · simp [w]
  · simp only [w, Bool.false_eq_true, if_false]
    by_cases v : works (.socketcan "can0" false false)
    · simp [v]
    · simp [v]

example : ∀ o ∈ Spec.options, o ∉ ["prog", "--velocity", "2"] := by decide +kernel

/-- **C112, given options are used**: the device or the interface that is named, the switches that are given; they are
removed from the arguments. -/
theorem C112_named (works : Transport → Bool) {a b : List String} (ha : ∀ o ∈ Spec.options, o ∉ a) (hb : ∀ o ∈ Spec.options, o ∉ b)
    (v : String) (hv : v ∉ Spec.options) :
    choose works (a ++ "--fdcanusb" :: v :: b) =
      (if works (.fdcanusb v false) then some (.fdcanusb v false, a ++ b) else none) ∧
    choose works (a ++ "--socketcan-iface" :: v :: b) =
      (if works (.socketcan v false false) then some (.socketcan v false false, a ++ b) else none) := by
  have no : ∀ o ∈ Spec.options, ∀ x, x ∈ Spec.options → o ≠ x → o ∉ a ++ x :: v :: b := by
    intro o ho x hx hne hm
    rcases List.mem_append.1 hm with hm | hm
    · exact ha o ho hm
    · rcases List.mem_cons.1 hm with hm | hm
      · exact hne hm
      · rcases List.mem_cons.1 hm with hm | hm
        · subst hm
          exact hv ho
        · exact hb o ho hm
  have nab : ∀ o ∈ Spec.options, o ∉ a ++ b := by
    intro o ho hm
    rcases List.mem_append.1 hm with hm | hm
    · exact ha o ho hm
    · exact hb o ho hm
  constructor
  · have h1 := no "--force-transport" (by simp [Spec.options]) "--fdcanusb" (by simp [Spec.options]) (by decide)
    have h2 := no "--can-disable-brs" (by simp [Spec.options]) "--fdcanusb" (by simp [Spec.options]) (by decide)
    have h4 := no "--socketcan-iface" (by simp [Spec.options]) "--fdcanusb" (by simp [Spec.options]) (by decide)
    have h5 := no "--socketcan-ignore-errors" (by simp [Spec.options]) "--fdcanusb" (by simp [Spec.options]) (by decide)
    have s1 : isSet .fdcanusb (a ++ "--fdcanusb" :: v :: b) = true := by simp [isSet]
    have s2 : isSet .socketcan (a ++ "--fdcanusb" :: v :: b) = false := by
      rw [isSet, decide_eq_false h4, decide_eq_false h5]
      rfl
    simp only [choose, takeValue_absent h1, Option.bind_some, items, List.filter_cons, s1, s2, List.filter_nil]
    simp [make, takeFlag, h2, List.erase_of_not_mem h2,
      takeValue_present (ha "--fdcanusb" (by simp [Spec.options])) v b]
  · have h1 := no "--force-transport" (by simp [Spec.options]) "--socketcan-iface" (by simp [Spec.options]) (by decide)
    have h2 := no "--can-disable-brs" (by simp [Spec.options]) "--socketcan-iface" (by simp [Spec.options]) (by decide)
    have h3 := no "--fdcanusb" (by simp [Spec.options]) "--socketcan-iface" (by simp [Spec.options]) (by decide)
    have h5 := nab "--socketcan-ignore-errors" (by simp [Spec.options])
    have s1 : isSet .fdcanusb (a ++ "--socketcan-iface" :: v :: b) = false := by
      rw [isSet, decide_eq_false h3]
    have s2 : isSet .socketcan (a ++ "--socketcan-iface" :: v :: b) = true := by simp [isSet]
    simp only [choose, takeValue_absent h1, Option.bind_some, items, List.filter_cons, s1, s2, List.filter_nil]
    simp [make, takeFlag, h2, List.erase_of_not_mem h2, List.erase_of_not_mem h5, h5,
      takeValue_present (ha "--socketcan-iface" (by simp [Spec.options])) v b]

example : (∀ o ∈ Spec.options, o ∉ ["prog", "-v"]) ∧ "/dev/fdcanusb" ∉ Spec.options := by decide +kernel

/-- **C112 is violated: options are left in the arguments**: of two transports only one set is removed, of an option that is given
twice only the first, and once the program has a transport none. -/
theorem C112_left_refuted :
    choose (fun _ => true) ["prog", "--fdcanusb", "a", "--socketcan-iface", "can1"] =
      some (.fdcanusb "a" false, ["prog", "--socketcan-iface", "can1"]) ∧
    choose (fun _ => true) ["prog", "--fdcanusb", "a", "--fdcanusb", "b"] =
      some (.fdcanusb "a" false, ["prog", "--fdcanusb", "b"]) ∧
    process (fun _ => true) (some (.fdcanusb "" false)) ["prog", "--socketcan-iface", "can1"] =
      some (.fdcanusb "" false, ["prog", "--socketcan-iface", "can1"]) := by
  decide +kernel

/-! ### waiting -/

private theorem wait_zero (l : List (Option Bool)) (k : ℕ) :
    wait 0 l = some k ↔ l[k]? = some (some true) ∧ ∀ i, i < k → l[i]? ≠ some (some true) := by
  induction l generalizing k with
  | nil => simp [wait]
  | cons r l ih =>
    rw [wait]
    simp only [Nat.zero_sub, ite_self]
    by_cases hr : r = some true
    · subst hr
      simp only [and_self, if_true, Option.some.injEq]
      constructor
      · rintro rfl
        simp
      · rintro ⟨-, h2⟩
        by_contra hne
        exact h2 0 (by omega) (by simp)
    · rw [if_neg (by simp [hr])]
      rw [Option.map_eq_some_iff]
      constructor
      · rintro ⟨j, hj, rfl⟩
        obtain ⟨h1, h2⟩ := (ih j).1 hj
        refine ⟨by simpa using h1, ?_⟩
        intro i hi
        cases i with
        | zero => simpa using hr
        | succ i =>
          simpa using h2 i (by omega)
      · rintro ⟨h1, h2⟩
        cases k with
        | zero => simp at h1; exact absurd h1 hr
        | succ k =>
          refine ⟨k, (ih k).2 ⟨by simpa using h1, fun i hi => ?_⟩, rfl⟩
          simpa using h2 (i + 1) (by omega)

private theorem wait_one (l : List (Option Bool)) : wait 1 l = wait 0 l := by
  induction l with
  | nil => rfl
  | cons r l ih =>
    rw [wait, wait]
    cases r with
    | none => simp [ih]
    | some b => simp

/-- **C112, waiting.** `SetPositionWaitComplete` returns with the first reply that reports the end of the motion and is not the
first reply at all; lost replies do not matter. -/
theorem C112_wait (l : List (Option Bool)) (k : ℕ) :
    wait 2 l = some k ↔ Spec.Ends l k ∧ ∀ i, i < k → ¬ Spec.Ends l i := by
  induction l generalizing k with
  | nil => simp [wait, Spec.Ends]
  | cons r l ih =>
    cases r with
    | none =>
      have sh : ∀ i, Spec.Ends (none :: l) (i + 1) ↔ Spec.Ends l i := by
        intro i
        simp only [Spec.Ends, List.getElem?_cons_succ]
        constructor
        · rintro ⟨h1, j, b, hj, hb⟩
          cases j with
          | zero => simp at hb
          | succ j => exact ⟨h1, j, b, by omega, by simpa using hb⟩
        · rintro ⟨h1, j, b, hj, hb⟩
          exact ⟨h1, j + 1, b, by omega, by simpa using hb⟩
      have z : ¬ Spec.Ends (none :: l) 0 := by simp [Spec.Ends]
      rw [wait]
      simp only [Option.isSome_none, Bool.false_eq_true, if_false]
      rw [if_neg (by simp), Option.map_eq_some_iff]
      constructor
      · rintro ⟨j, hj, rfl⟩
        obtain ⟨h1, h2⟩ := (ih j).1 hj
        refine ⟨(sh j).2 h1, fun i hi => ?_⟩
        cases i with
        | zero => exact z
        | succ i => rw [sh]; exact h2 i (by omega)
      · rintro ⟨h1, h2⟩
        cases k with
        | zero => exact absurd h1 z
        | succ k =>
          refine ⟨k, (ih k).2 ⟨(sh k).1 h1, fun i hi => ?_⟩, rfl⟩
          rw [← sh]
          exact h2 (i + 1) (by omega)
    | some b =>
      have sh : ∀ i, Spec.Ends (some b :: l) (i + 1) ↔ l[i]? = some (some true) := by
        intro i
        simp only [Spec.Ends, List.getElem?_cons_succ]
        constructor
        · exact fun h => h.1
        · exact fun h => ⟨h, 0, b, by omega, by simp⟩
      have z : ¬ Spec.Ends (some b :: l) 0 := by simp [Spec.Ends]
      rw [wait]
      simp only [Option.isSome_some, if_true]
      rw [if_neg (by simp), Option.map_eq_some_iff]
      constructor
      · rintro ⟨j, hj, rfl⟩
        rw [wait_one] at hj
        obtain ⟨h1, h2⟩ := (wait_zero l j).1 hj
        refine ⟨(sh j).2 h1, fun i hi => ?_⟩
        cases i with
        | zero => exact z
        | succ i => rw [sh]; exact h2 i (by omega)
      · rintro ⟨h1, h2⟩
        cases k with
        | zero => exact absurd h1 z
        | succ k =>
          refine ⟨k, ?_, rfl⟩
          rw [wait_one]
          refine (wait_zero l k).2 ⟨(sh k).1 h1, fun i hi => ?_⟩
          have := h2 (i + 1) (by omega)
          rwa [sh] at this

example : wait 2 [none, some true, none, some false, some true] = some 4 := by decide

end Verif.Cxx.Socket
