import Verif.Commands.Lemmas

/-! # Lemmas about queries -/

namespace Verif.Commands

open Verif Verif.Float Verif.Multiplex Verif.Multiplex.Spec Verif.Commands.Spec

/-- A piece of a frame that consists of the given reads and is answered with
`n` bytes. -/
def ReadPiece (body : Bytes) (reads : List (Nat × Res)) (n : Nat) : Prop :=
  (∀ tail, accesses (body ++ tail) =
    (accesses tail).map ((reads.map fun x => Access.read x.1 x.2) ++ ·)) ∧
  ∀ regs : Nat → Res → Bytes, (∀ reg r, (regs reg r).length = r.size) →
    ∃ reply, reply.length = n ∧ ∀ tail, answer regs (body ++ tail) = (answer regs tail).map (reply ++ ·)

theorem ReadPiece.nil : ReadPiece [] [] 0 := by
  refine ⟨by simp, fun regs _ => ⟨[], rfl, by simp⟩⟩

theorem ReadPiece.append {a b : Bytes} {x y : List (Nat × Res)} {m n : Nat} (h1 : ReadPiece a x m)
    (h2 : ReadPiece b y n) : ReadPiece (a ++ b) (x ++ y) (m + n) := by
  constructor
  · intro tail
    rw [List.append_assoc, h1.1, h2.1, Option.map_map]
    simp [Function.comp_def]
  · intro regs hr
    obtain ⟨r1, l1, e1⟩ := h1.2 regs hr
    obtain ⟨r2, l2, e2⟩ := h2.2 regs hr
    refine ⟨r1 ++ r2, by simp [l1, l2], ?_⟩
    intro tail
    rw [List.append_assoc, e1, e2, Option.map_map]
    simp [Function.comp_def]

theorem queryBlock_ok (buf : Bytes) (start : Nat) (rs : List (Option Res)) (hrun : ¬ LongRun rs)
    (hreg : start + rs.length ≤ 2 ^ 35) :
    ∃ body n, queryBlock buf start rs = .ok (buf ++ body, n) ∧ ReadPiece body (wanted start rs) n := by
  obtain ⟨c, h1, h2, h3⟩ := emit_ok (Or.inr (Or.inl rfl)) buf start (noValues rs) (by simpa using hrun)
  have h1' : (WriteCombiner.init buf 0x10 start rs).runQuery = .ok c := by
    unfold emit at h1
    rw [map_noValues, noValues_fst] at h1
    exact h1
  refine ⟨enc 0x10 start none (noValues rs), c.replySize, ?_, ?_, ?_⟩
  · simp only [queryBlock, h1']
    rw [← h2]; rfl
  · intro tail
    exact (read_enc rs start tail ((runsOk_iff _ _ (by simp)).mpr hrun) hreg).1
  · intro regs hr
    refine ⟨enc 0x20 start none (withValues regs start rs), ?_, ?_⟩
    · rw [h3, noValues_fst, encSize_eq 0x10 regs hr]
    · intro tail
      exact (read_enc rs start tail ((runsOk_iff _ _ (by simp)).mpr hrun) hreg).2 regs

/-! ## Dictionaries -/

theorem mem_wanted (start : Nat) (rs : List (Option Res)) (reg : Nat) (r : Res) :
    (reg, r) ∈ wanted start rs ↔ start ≤ reg ∧ rs[reg - start]? = some (some r) := by
  induction rs generalizing start with
  | nil => simp [wanted]
  | cons x rs ih =>
    have hstep : (start + 1 ≤ reg ∧ rs[reg - (start + 1)]? = some (some r)) ↔
        (start < reg ∧ (x :: rs)[reg - start]? = some (some r)) := by
      constructor
      · rintro ⟨h1, h2⟩
        refine ⟨h1, ?_⟩
        rw [show reg - start = (reg - (start + 1)) + 1 by omega]
        simpa using h2
      · rintro ⟨h1, h2⟩
        refine ⟨h1, ?_⟩
        rw [show reg - start = (reg - (start + 1)) + 1 by omega] at h2
        simpa using h2
    cases x with
    | none =>
      simp only [wanted]
      rw [ih, hstep]
      constructor
      · rintro ⟨h1, h2⟩; exact ⟨by omega, h2⟩
      · rintro ⟨h1, h2⟩
        refine ⟨?_, h2⟩
        rcases Nat.lt_or_eq_of_le h1 with h | h
        · exact h
        · subst h; simp at h2
    | some r' =>
      simp only [wanted, List.mem_cons, Prod.mk.injEq]
      rw [ih, hstep]
      constructor
      · rintro (⟨rfl, rfl⟩ | ⟨h1, h2⟩)
        · simp
        · exact ⟨by omega, h2⟩
      · rintro ⟨h1, h2⟩
        rcases Nat.lt_or_eq_of_le h1 with h | h
        · exact Or.inr ⟨h, h2⟩
        · subst h
          simp at h2
          exact Or.inl ⟨rfl, h2.symm⟩

theorem wanted_pairwise (start : Nat) (rs : List (Option Res)) :
    (wanted start rs).Pairwise (fun x y => x.1 < y.1) := by
  have := C06_query_increasing start rs
  rwa [List.pairwise_map] at this

theorem getD_some {d : List (Nat × Option Res)} (hk : (d.map Prod.fst).Nodup) (reg : Nat) (r : Res) :
    getD d reg = some r ↔ (reg, some r) ∈ d := by
  unfold getD
  constructor
  · intro h
    cases hf : d.find? (fun e => e.1 = reg) with
    | none => rw [hf] at h; simp at h
    | some e =>
      rw [hf] at h
      have h1 := List.mem_of_find?_eq_some hf
      have h2 := List.find?_some hf
      simp only [decide_eq_true_eq] at h2
      simp only at h
      rw [← h2, ← h]
      exact h1
  · intro h
    cases hf : d.find? (fun e => e.1 = reg) with
    | none =>
      have := List.find?_eq_none.mp hf (reg, some r) h
      simp at this
    | some e =>
      have h1 := List.mem_of_find?_eq_some hf
      have h2 := List.find?_some hf
      simp only [decide_eq_true_eq] at h2
      have : e = (reg, some r) := by
        have := List.inj_on_of_nodup_map hk h1 h (by simpa using h2)
        exact this
      rw [this]

theorem foldl_min_le (ks : List Nat) (k : Nat) : (ks.foldl min k ≤ k) ∧ ∀ x ∈ ks, ks.foldl min k ≤ x := by
  induction ks generalizing k with
  | nil => simp
  | cons a ks ih =>
    obtain ⟨h1, h2⟩ := ih (min k a)
    simp only [List.foldl_cons, List.mem_cons]
    refine ⟨by omega, ?_⟩
    rintro x (rfl | hx)
    · omega
    · exact h2 x hx

theorem le_foldl_max (ks : List Nat) (k : Nat) : (k ≤ ks.foldl max k) ∧ ∀ x ∈ ks, x ≤ ks.foldl max k := by
  induction ks generalizing k with
  | nil => simp
  | cons a ks ih =>
    obtain ⟨h1, h2⟩ := ih (max k a)
    simp only [List.foldl_cons, List.mem_cons]
    refine ⟨by omega, ?_⟩
    rintro x (rfl | hx)
    · omega
    · exact h2 x hx

theorem foldl_max_mem (ks : List Nat) (k : Nat) : ks.foldl max k ∈ k :: ks := by
  induction ks generalizing k with
  | nil => simp
  | cons a ks ih =>
    have := ih (max k a)
    simp only [List.foldl_cons, List.mem_cons] at this ⊢
    rcases this with h | h
    · rcases Nat.le_total k a with hh | hh
      · rw [Nat.max_eq_right hh] at h ⊢; exact Or.inr (Or.inl h)
      · rw [Nat.max_eq_left hh] at h ⊢; exact Or.inl h
    · exact Or.inr (Or.inr h)

theorem dictRange_ok {d : List (Nat × Option Res)} (h : DictOk d) (hne : d ≠ []) :
    ∃ lo rs, dictRange d = some (lo, rs) ∧ lo + rs.length ≤ 2 ^ 35 ∧ ¬ LongRun rs ∧
      Fields d (wanted lo rs) := by
  obtain ⟨e, d', hd⟩ := List.exists_cons_of_ne_nil hne
  set ks := d'.map Prod.fst with hks
  set lo := ks.foldl min e.1 with hlo
  set hi := ks.foldl max e.1 with hhi
  have hall : ∀ x ∈ d, lo ≤ x.1 ∧ x.1 ≤ hi := by
    intro x hx
    rw [hd] at hx
    rcases List.mem_cons.mp hx with rfl | hx
    · exact ⟨(foldl_min_le ks _).1, (le_foldl_max ks _).1⟩
    · have : x.1 ∈ ks := List.mem_map_of_mem hx
      exact ⟨(foldl_min_le ks _).2 _ this, (le_foldl_max ks _).2 _ this⟩
  have hhi_lt : hi < 2 ^ 35 := by
    have := foldl_max_mem ks e.1
    have : hi ∈ d.map Prod.fst := by rw [hd, List.map_cons]; exact this
    obtain ⟨x, hx, hxe⟩ := List.mem_map.mp this
    rw [← hxe]; exact h.range x hx
  have hlohi : lo ≤ hi := by
    have := hall e (by rw [hd]; simp)
    omega
  set rs := (List.range (hi + 1 - lo)).map fun i => getD d (lo + i) with hrs
  have hget : ∀ i r, rs[i]? = some (some r) ↔ (lo + i, some r) ∈ d := by
    intro i r
    rw [hrs, List.getElem?_map]
    by_cases hi' : i < hi + 1 - lo
    · rw [List.getElem?_range hi']
      simp only [Option.map_some, Option.some.injEq]
      exact getD_some h.keys _ _
    · rw [List.getElem?_eq_none (by simpa using hi')]
      simp only [Option.map_none, reduceCtorEq, false_iff]
      intro hm
      have := (hall _ hm).2
      simp only at this
      omega
  refine ⟨lo, rs, ?_, ?_, ?_, wanted_pairwise _ _, ?_⟩
  · unfold dictRange
    rw [hd]
    simp only [List.map_cons]
    rw [← hks, ← hlo, ← hhi, hrs, hd]
  · rw [hrs]; simp; omega
  · rintro ⟨r, pre, post, hpp⟩
    refine h.runs ⟨lo + pre.length, r, ?_⟩
    intro i hi128
    have := (hget (pre.length + i) r).mp ?_
    · rw [Nat.add_assoc]; exact this
    · rw [← hpp, List.append_assoc, List.getElem?_append_right (by omega),
        show pre.length + i - pre.length = i by omega,
        List.getElem?_append_left (by rw [List.length_replicate]; exact hi128),
        List.getElem?_replicate, if_pos hi128]
  · intro reg r
    rw [mem_wanted, hget]
    constructor
    · rintro ⟨h1, h2⟩
      rwa [show lo + (reg - lo) = reg by omega] at h2
    · intro h2
      have := (hall _ h2).1
      simp only at this
      refine ⟨this, ?_⟩
      rwa [show lo + (reg - lo) = reg by omega]

theorem dictRange_nil : dictRange [] = none := rfl

theorem finer_eq (a b : Option Res) : mergeResolutions a b = finer a b := by
  cases a with
  | none => cases b <;> rfl
  | some a => cases b with
    | none => cases a <;> rfl
    | some b => cases a <;> cases b <;> rfl

/-- The bytes of a query ask for exactly what the setting says. -/
theorem makeQueryData_ok (qr : QueryResolution) (h : DictOk qr.extra) :
    ∃ q n reads, makeQueryData qr = .ok (q, n) ∧ Asks qr reads ∧ ReadPiece q reads n := by
  obtain ⟨b1, n1, e1, p1⟩ := queryBlock_ok [] 0x000 [qr.mode, qr.position, qr.velocity, qr.torque,
    qr.q_current, qr.d_current, qr.abs_position, qr.power] (longRun_short (by simp)) (by simp)
  obtain ⟨b2, n2, e2, p2⟩ := queryBlock_ok ([] ++ b1) 0x00a [qr.motor_temperature, qr.trajectory_complete,
    mergeResolutions qr.rezero_state qr.home_state, qr.voltage, qr.temperature, qr.fault]
    (longRun_short (by simp)) (by simp)
  obtain ⟨b3, n3, e3, p3⟩ := queryBlock_ok ([] ++ b1 ++ b2) 0x05e [qr.aux1_gpio, qr.aux2_gpio]
    (longRun_short (by simp)) (by simp)
  have hstd : wanted 0x000 [qr.mode, qr.position, qr.velocity, qr.torque,
      qr.q_current, qr.d_current, qr.abs_position, qr.power] ++
      wanted 0x00a [qr.motor_temperature, qr.trajectory_complete,
        mergeResolutions qr.rezero_state qr.home_state, qr.voltage, qr.temperature, qr.fault] ++
      wanted 0x05e [qr.aux1_gpio, qr.aux2_gpio] = standard qr := by
    have hw : ∀ (rs : List (Option Res)) (s : Nat), wanted s rs =
        (rs.zipIdx s).filterMap fun x => x.1.map (x.2, ·) := by
      intro rs
      induction rs with
      | nil => intro s; simp [wanted]
      | cons x rs ih => intro s; cases x <;> simp [wanted, ih]
    have hm : ∀ (l : List (Option Res × Nat)), (l.filterMap fun x => x.1.map (x.2, ·)) =
        (l.map fun x => (x.2, x.1)).filterMap fun x => x.2.map (x.1, ·) := by
      intro l; rw [List.filterMap_map]; rfl
    rw [hw, hw, hw, hm, hm, hm, ← List.filterMap_append, ← List.filterMap_append, finer_eq]
    rfl
  have hp := (p1.append p2).append p3
  rw [hstd] at hp
  by_cases hne : qr.extra = []
  · refine ⟨[] ++ b1 ++ b2 ++ b3, n1 + n2 + n3, standard qr ++ [], ?_, ⟨[], ?_, rfl⟩, ?_⟩
    · unfold makeQueryData
      rw [e1]
      simp only [Except.bind, bind]
      rw [e2]
      simp only
      rw [e3]
      simp only
      rw [hne, dictRange_nil]
      rfl
    · rw [hne]; exact ⟨List.Pairwise.nil, by simp⟩
    · simpa using hp
  · obtain ⟨lo, rs, hd, hl, hr, hf⟩ := dictRange_ok h hne
    obtain ⟨b4, n4, e4, p4⟩ := queryBlock_ok ([] ++ b1 ++ b2 ++ b3) lo rs hr hl
    refine ⟨[] ++ b1 ++ b2 ++ b3 ++ b4, n1 + n2 + n3 + n4, standard qr ++ wanted lo rs, ?_,
      ⟨_, hf, rfl⟩, ?_⟩
    · unfold makeQueryData
      rw [e1]
      simp only [Except.bind, bind]
      rw [e2]
      simp only
      rw [e3]
      simp only
      rw [hd]
      simp only
      rw [e4]
      rfl
    · have := hp.append p4
      simpa using this

/-- The final assembly of a command. -/
theorem formatQuery_ok (c : Controller) (hc : c.Constructed) (query : Bool)
    (override : Option QueryResolution) (hq : QueryOk c override) (body : Bytes) (ws : List Access)
    (hw : WritePiece body ws) :
    ∃ cmd, c.formatQuery query override body (c.makeCommand query override) = .ok cmd ∧
      Delivers c query override cmd ws := by
  have key : ∀ (q : Bytes) (n : Nat) (reads : List (Nat × Res)), ReadPiece q reads n →
      accesses (body ++ q) = some (ws ++ reads.map fun x => Access.read x.1 x.2) ∧
      ∀ regs : Nat → Res → Bytes, (∀ reg r, (regs reg r).length = r.size) →
        (answer regs (body ++ q)).map List.length = some n := by
    intro q n reads hr
    constructor
    · rw [hw.1]
      have := hr.1 []
      rw [List.append_nil] at this
      rw [this]
      simp [accesses, decode_nil]
    · intro regs hsz
      obtain ⟨reply, hl, ha⟩ := hr.2 regs hsz
      have := ha []
      rw [List.append_nil] at this
      rw [hw.2, this]
      simp [answer, decode_nil, hl]
  unfold Controller.formatQuery
  cases override with
  | some qr =>
    obtain ⟨q, n, reads, h1, h2, h3⟩ := makeQueryData_ok qr (hq.2 qr rfl)
    obtain ⟨k1, k2⟩ := key q n reads h3
    refine ⟨{ c.makeCommand query (some qr) with data := body ++ q, expectedReplySize := n }, ?_, ?_⟩
    · simp only [h1]; rfl
    · exact ⟨rfl, rfl, by simp [Controller.makeCommand, queryPart], ⟨_, ⟨reads, h2, rfl⟩, k1⟩, k2⟩
  | none =>
    cases query with
    | false =>
      refine ⟨{ c.makeCommand false none with data := body }, rfl, rfl, rfl, rfl, ⟨[], rfl, ?_⟩, ?_⟩
      · have := hw.1 []
        simpa [accesses, decode_nil] using this
      · intro regs _
        have := hw.2 regs []
        simp only [List.append_nil] at this
        rw [this]; rfl
    | true =>
      obtain ⟨q, n, reads, h1, h2, h3⟩ := makeQueryData_ok c.query_resolution hq.1
      unfold Controller.Constructed at hc
      rw [h1] at hc
      simp only [Except.ok.injEq, Prod.mk.injEq] at hc
      obtain ⟨rfl, rfl⟩ := hc
      obtain ⟨k1, k2⟩ := key _ _ reads h3
      exact ⟨_, rfl, rfl, rfl, rfl, ⟨_, ⟨reads, h2, rfl⟩, k1⟩, k2⟩

end Verif.Commands
