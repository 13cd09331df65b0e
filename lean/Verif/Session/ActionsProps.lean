import Verif.Session.Actions

/-!
# What the other actions of `moteus_tool.py` send

Properties C89 (configuration) and C90 (firmware, offset, calibration, targets).
-/

namespace Verif.Session.Act

/-! ## Specification -/

namespace Spec

/-- A step that is expected: which exchange it is, and that it went well. -/
structure St where
  shape : Ev → Prop
  good : Ev → Prop

/-- A command that must be acknowledged. -/
def ack (l : Line) : St := ⟨fun e => ∃ r, e = .sent l r, fun e => ∃ t, e = .sent l (.ok t)⟩

/-- A command that may be refused. -/
def answered (l : Line) : St :=
  ⟨fun e => ∃ r, e = .sent l r, fun e => (∃ t, e = .sent l (.ok t)) ∨ e = .sent l .err⟩

/-- A command that is refused. -/
def refused (l : Line) : St := ⟨fun e => e = .sent l .err, fun e => e = .sent l .err⟩

/-- A message without reply. -/
def wrote (l : Line) : St := ⟨fun e => e = .wrote l, fun e => e = .wrote l⟩

/-- Reading a line. -/
def heard : St := ⟨fun e => e = .listened, fun e => e = .listened⟩

/-- Telemetry. -/
def got (c : Line) : St := ⟨fun e => ∃ v, e = .data c v, fun e => ∃ v, e = .data c (some v)⟩

/-- A question whose answer must satisfy a check. -/
def verified (x : Line × (Line → Bool)) : St :=
  ⟨fun e => ∃ a, e = .asked x.1 a, fun e => ∃ a, e = .asked x.1 (some a) ∧ x.2 a = true⟩

/-- The exchanges follow the list: each went well before the next began; `true`: the whole list
was done. -/
inductive Runs : List St → List Ev → Bool → Prop
  | stop {L} : Runs L [] false
  | done : Runs [] [] true
  | fail {s L e} : s.shape e → Runs (s :: L) [e] false
  | cons {s L e t b} : s.good e → Runs L t b → Runs (s :: L) (e :: t) b

/-- The lines that were refused. -/
def refusals (t : List Ev) : List Line :=
  t.filterMap fun e => match e with | .sent l .err => some l | _ => none

/-- Only whitespace. -/
def blank (l : Line) : Bool := l.all bytesSpace

/-- What is expected for lines of settings: each that is not blank, without whitespace at
its end, with `conf set` before it. -/
def settingSteps (ls : List Line) : List St :=
  (ls.filter fun l => !blank l).map fun l => answered (txt "conf set " ++ l.rdropWhile bytesSpace)

/-- Restoring settings after a new firmware was installed. -/
def restoreSteps (ls : List Line) : List St :=
  settingSteps ls ++ [ack (txt "conf write"), wrote (txt "d reset")]

end Spec

open Spec

/-! ## Scripts -/

theorem Runs.append {L1 L2 : List St} {t u : List Ev} {b : Bool} (h1 : Runs L1 t true)
    (h2 : Runs L2 u b) : Runs (L1 ++ L2) (t ++ u) b := by
  generalize hb : true = c at h1
  induction h1 with
  | stop => cases hb
  | done => exact h2
  | fail => cases hb
  | cons hg _ ih => exact .cons hg (ih hb)

theorem Runs.prefix {L1 : List St} (L2 : List St) {t : List Ev} (h1 : Runs L1 t false) :
    Runs (L1 ++ L2) t false := by
  generalize hb : false = c at h1
  induction h1 with
  | stop => exact .stop
  | done => cases hb
  | fail h => exact .fail h
  | cons hg _ ih => subst hb; exact .cons hg (ih rfl)

theorem Runs.stopped {L : List St} {t : List Ev} {b : Bool} (h : Runs L t b) : Runs L t false := by
  induction h with
  | stop => exact .stop
  | done => exact .stop
  | fail h => exact .fail h
  | cons hg _ ih => exact .cons hg ih

def isOk {α : Type} : Res Exn α → Bool
  | .ok _ => true
  | .raised _ => false

/-- A program that does what the list says. -/
def Follows {α : Type} (p : P α) (L : List St) : Prop := ∀ t r, p t r → Runs L t (isOk r)

variable {α β : Type}

theorem Follows.bind {p : P α} {f : α → P β} {L1 L2 : List St} (h1 : Follows p L1)
    (h2 : ∀ a, Follows (f a) L2) : Follows (p >>= f) (L1 ++ L2) := by
  intro t r h
  cases h with
  | ok hp hf => exact Runs.append (h1 _ _ hp) (h2 _ _ _ hf)
  | raised hp => exact Runs.prefix _ (h1 _ _ hp)

theorem Follows.pure (a : α) : Follows (Pure.pure a) [] := by
  rintro t r ⟨rfl, rfl⟩
  exact .done

theorem Follows.raise (e : Exn) (L : List St) : Follows (M.raise e : P α) L := by
  rintro t r ⟨rfl, rfl⟩
  exact .stop

theorem Follows.command (l : Line) : Follows (command l) [ack l] := by
  rintro t r (⟨x, rfl, rfl⟩ | ⟨rfl, rfl⟩ | ⟨rfl, rfl⟩)
  · exact .cons ⟨x, rfl⟩ .done
  · exact .fail ⟨_, rfl⟩
  · exact .fail ⟨_, rfl⟩

theorem Follows.writeMessage (l : Line) : Follows (writeMessage l) [wrote l] := by
  rintro t r ⟨rfl, rfl | rfl⟩
  · exact .cons rfl .done
  · exact .fail rfl

theorem Follows.listen : Follows listen [heard] := by
  rintro t r ⟨rfl, rfl | rfl⟩
  · exact .cons rfl .done
  · exact .fail rfl

theorem Follows.readData (c : Line) : Follows (readData c) [got c] := by
  rintro t r (⟨x, rfl, rfl⟩ | ⟨rfl, e, rfl⟩)
  · exact .cons ⟨x, rfl⟩ .done
  · exact .fail ⟨_, rfl⟩

theorem Follows.attempt (l : Line) {x : Line} :
    Follows (M.Catch (do let _ ← Act.command l; Pure.pure ([] : List Line))
      (fun e => if e = .command then Pure.pure [x] else M.raise e)) [answered l] := by
  intro t r h
  cases h with
  | ok hp =>
    cases hp with
    | ok h1 h2 =>
      obtain ⟨rfl, -⟩ := h2
      rcases h1 with ⟨x, rfl, h⟩ | ⟨rfl, h⟩ | ⟨rfl, h⟩
      · exact .cons (Or.inl ⟨x, rfl⟩) .done
      · cases h
      · cases h
  | caught hp hh =>
    cases hp with
    | ok h1 h2 => obtain ⟨-, h⟩ := h2; cases h
    | raised h1 =>
      rcases h1 with ⟨x, rfl, h⟩ | ⟨rfl, h⟩ | ⟨rfl, h⟩
      · cases h
      · cases h
        rw [if_pos rfl] at hh
        obtain ⟨rfl, rfl⟩ := hh
        exact .cons (Or.inr rfl) .done
      · cases h
        rw [if_neg (by decide)] at hh
        obtain ⟨rfl, rfl⟩ := hh
        exact .fail ⟨_, rfl⟩

/-! ## Text -/

theorem split_lines (ls : List Line) (last : Line) (h : ∀ l ∈ ls, '\n' ∉ l) (hl : '\n' ∉ last) :
    split (ls.flatMap (· ++ ['\n']) ++ last) = ls ++ [last] := by
  have h1 : ∀ l : Line, '\n' ∉ l → ∀ rest, split (l ++ '\n' :: rest) = l :: split rest := by
    intro l
    induction l with
    | nil => intro _ rest; simp [split]
    | cons c l ih =>
      intro hc rest
      have hc1 : c ≠ '\n' := fun hx => hc (by simp [hx])
      have := ih (fun hx => hc (by simp [hx])) rest
      simp [split, hc1, this]
  have h2 : ∀ l : Line, '\n' ∉ l → split l = [l] := by
    intro l
    induction l with
    | nil => intro _; simp [split]
    | cons c l ih =>
      intro hc
      have hc1 : c ≠ '\n' := fun hx => hc (by simp [hx])
      have := ih (fun hx => hc (by simp [hx]))
      simp [split, hc1, this]
  induction ls with
  | nil => simpa using h2 last hl
  | cons l ls ih =>
    have := ih (fun x hx => h x (by simp [hx]))
    simp only [List.flatMap_cons, List.append_assoc, List.cons_append, List.nil_append]
    rw [h1 l (h l (by simp)), this]

theorem readlines_lines (ls : List Line) (h : ∀ l ∈ ls, '\n' ∉ l) :
    readlines (ls.flatMap (· ++ ['\n'])) = ls.map (· ++ ['\n']) := by
  have h1 : ∀ l : Line, '\n' ∉ l → ∀ rest, readlines (l ++ '\n' :: rest)
      = (l ++ ['\n']) :: readlines rest := by
    intro l
    induction l with
    | nil => intro _ rest; simp [readlines]
    | cons c l ih =>
      intro hc rest
      have hc1 : c ≠ '\n' := fun hx => hc (by simp [hx])
      have := ih (fun hx => hc (by simp [hx])) rest
      simp [readlines, hc1, this]
  induction ls with
  | nil => simp [readlines]
  | cons l ls ih =>
    have := ih (fun x hx => h x (by simp [hx]))
    simp only [List.flatMap_cons, List.append_assoc, List.cons_append, List.nil_append,
      List.map_cons]
    rw [h1 l (h l (by simp)), this]

/-- Every text is made of lines and a rest without newline. -/
theorem C89_lines (s : List Char) : ∃ (ls : List Line) (last : Line), (∀ l ∈ ls, '\n' ∉ l) ∧ '\n' ∉ last ∧
    s = (ls.flatMap fun l => l ++ ['\n']) ++ last := by
  induction s with
  | nil => exact ⟨[], [], by simp, by simp, by simp⟩
  | cons c s ih =>
    obtain ⟨ls, last, h1, h2, h3⟩ := ih
    by_cases hc : c = '\n'
    · exact ⟨[] :: ls, last, by simpa using h1, h2, by simp [hc, h3]⟩
    · cases ls with
      | nil => exact ⟨[], c :: last, by simp, by simp [h2, Ne.symm hc], by simp [h3]⟩
      | cons l ls =>
        refine ⟨(c :: l) :: ls, last, ?_, h2, by simp [h3]⟩
        intro x hx
        rcases List.mem_cons.mp hx with hx | hx
        · subst hx; simp [Ne.symm hc, h1 l (by simp)]
        · exact h1 x (by simp [hx])

theorem rdropWhile_append {p : Char → Bool} (a l : Line) (h : l.rdropWhile p ≠ []) :
    (a ++ l).rdropWhile p = a ++ l.rdropWhile p := by
  induction l using List.reverseRecOn with
  | nil => simp at h
  | append_singleton l c ih =>
    by_cases hc : p c
    · rw [List.rdropWhile_concat_pos _ _ _ hc] at h ⊢
      rw [← List.append_assoc, List.rdropWhile_concat_pos _ _ _ hc, ih h]
    · rw [List.rdropWhile_concat_neg _ _ _ hc, ← List.append_assoc,
        List.rdropWhile_concat_neg _ _ _ hc]

theorem blank_iff (l : Line) : blank l = true ↔ l.rdropWhile bytesSpace = [] := by
  rw [List.rdropWhile_eq_nil_iff, blank, List.all_eq_true]

theorem rstrip_setting (l : Line) (h : blank l = false) :
    rstrip bytesSpace (txt "conf set " ++ l ++ ['\n']) = txt "conf set " ++ l.rdropWhile bytesSpace := by
  unfold rstrip
  rw [List.rdropWhile_concat_pos _ _ _ (by decide)]
  apply rdropWhile_append
  intro hx
  rw [← blank_iff] at hx
  rw [hx] at h
  cases h

/-! ## C89: configuration -/

theorem settings_follow (ls : List Line) :
    Follows (settings (ls.map fun l => l ++ ['\n']))
      ((ls.filter fun l => !blank l).map fun l => answered (l.rdropWhile bytesSpace)) := by
  induction ls with
  | nil => exact Follows.pure _
  | cons l ls ih =>
    simp only [List.map_cons, settings]
    have hstrip : rstrip bytesSpace (l ++ ['\n']) = l.rdropWhile bytesSpace :=
      List.rdropWhile_concat_pos _ _ _ (by decide)
    rw [hstrip]
    have hrest : ∀ e : List Line, Follows (do
        let es ← settings (ls.map fun l => l ++ ['\n'])
        Pure.pure (e ++ es)) (((ls.filter fun l => !blank l).map fun l =>
          answered (l.rdropWhile bytesSpace))) := by
      intro e
      have := Follows.bind ih (fun es => Follows.pure (e ++ es))
      rwa [List.append_nil] at this
    by_cases hb : l.rdropWhile bytesSpace = []
    · rw [if_pos hb]
      have hx : blank l = true := (blank_iff l).mpr hb
      rw [List.filter_cons_of_neg (by simp [hx])]
      have := Follows.bind (Follows.pure ([] : List Line)) hrest
      rwa [List.nil_append] at this
    · rw [if_neg hb]
      have hx : ¬ blank l = true := fun hx => hb ((blank_iff l).mp hx)
      rw [List.filter_cons_of_pos (by simp [hx]), List.map_cons]
      exact Follows.bind (L1 := [_]) (Follows.attempt _) hrest

/-- A file of commands: each line that is not blank is sent, in order, without the whitespace at
its end; a refused line does not stop it, any other failure does. -/
theorem C89_write_config (ls : List Line) (h : ∀ l ∈ ls, '\n' ∉ l) :
    Follows (writeConfigStream (ls.flatMap fun l => l ++ ['\n']))
      ((ls.filter fun l => !blank l).map fun l => answered (l.rdropWhile bytesSpace)) := by
  unfold writeConfigStream
  rw [readlines_lines ls h]
  exact settings_follow ls

theorem filter_empty_last (ls : List Line) (last : Line) :
    ((ls ++ [last]).filter fun l => !l.all bytesSpace) =
      (ls ++ [last]).filter fun l => !blank l := rfl

theorem nl_setting {l : Line} (h : '\n' ∉ l) : '\n' ∉ txt "conf set " ++ l := by
  rw [List.mem_append]
  rintro (hx | hx)
  · exact absurd hx (by decide)
  · exact h hx

theorem steps_eq (ls : List Line) :
    (((ls.filter fun l => !blank l).map fun l => txt "conf set " ++ l).filter
      fun l => !blank l).map (fun l => answered (l.rdropWhile bytesSpace)) = settingSteps ls := by
  unfold settingSteps
  induction ls with
  | nil => rfl
  | cons l ls ih =>
    by_cases hx : blank l = true
    · rw [List.filter_cons_of_neg (by simp [hx])]; exact ih
    · rw [List.filter_cons_of_pos (by simp [hx]), List.map_cons, List.map_cons]
      have hne : l.rdropWhile bytesSpace ≠ [] := fun h => hx ((blank_iff l).mpr h)
      have h1 := rdropWhile_append (txt "conf set ") l hne
      have h2 : ¬ blank (txt "conf set " ++ l) = true := by
        rw [blank_iff, h1]; simp [hne]
      rw [List.filter_cons_of_pos (by simp [h2]), List.map_cons, h1, ih]

/-- The settings that are restored after a new firmware was installed: each line that is not blank
as one `conf set`, in order; then they are stored, then the controller is reset. -/
theorem C89_restore (ls : List Line) (last : Line) (h : ∀ l ∈ ls, '\n' ∉ l) (hl : '\n' ∉ last) :
    Follows (restoreConfig ((ls.flatMap fun l => l ++ ['\n']) ++ last))
      (restoreSteps (ls ++ [last])) := by
  unfold restoreConfig restoreSteps
  dsimp only
  rw [split_lines ls last h hl, filter_empty_last]
  have hall : ∀ l ∈ (ls ++ [last]), '\n' ∉ l := by
    intro l hx
    rcases List.mem_append.mp hx with hx | hx
    · exact h l hx
    · rw [List.mem_singleton.mp hx]; exact hl
  have hflat : ((ls ++ [last]).filter fun l => !blank l).flatMap
      (fun l => txt "conf set " ++ l ++ ['\n']) =
      (((ls ++ [last]).filter fun l => !blank l).map fun l => txt "conf set " ++ l).flatMap
        fun l => l ++ ['\n'] := by
    rw [List.flatMap_map]
  rw [hflat]
  have h1 := C89_write_config (((ls ++ [last]).filter fun l => !blank l).map
    fun l => txt "conf set " ++ l) (by
      intro l hx
      obtain ⟨x, hx1, rfl⟩ := List.mem_map.mp hx
      exact nl_setting (hall x (List.mem_filter.mp hx1).1))
  rw [steps_eq] at h1
  refine Follows.bind h1 (fun _ => ?_)
  refine Follows.bind (L1 := [_]) (Follows.command _) (fun _ => ?_)
  exact Follows.bind (L1 := [_]) (L2 := []) (Follows.writeMessage _) (fun _ => Follows.pure _)

theorem refusals_append (t u : List Ev) : refusals (t ++ u) = refusals t ++ refusals u := by
  simp [refusals]

theorem setting_refusals {l : Line} {t : List Ev} {e : List Line}
    (h : setting l t (.ok e)) : e = refusals t := by
  unfold setting at h
  cases h with
  | ok hp =>
    cases hp with
    | ok h1 h2 =>
      obtain ⟨rfl, h⟩ := h2
      cases h
      rcases h1 with ⟨x, rfl, h⟩ | ⟨rfl, h⟩ | ⟨rfl, h⟩
      · rfl
      · cases h
      · cases h
  | caught hp hh =>
    cases hp with
    | ok h1 h2 => obtain ⟨-, h⟩ := h2; cases h
    | raised h1 =>
      rcases h1 with ⟨x, rfl, h⟩ | ⟨rfl, h⟩ | ⟨rfl, h⟩
      · cases h
      · cases h
        rw [if_pos rfl] at hh
        obtain ⟨rfl, h⟩ := hh
        cases h
        rfl
      · cases h
        rw [if_neg (by decide)] at hh
        obtain ⟨rfl, h⟩ := hh
        cases h

/-- The lines that are printed as refused are the ones that were refused. -/
theorem C89_refused (content : List Char) (t : List Ev) (errors : List Line)
    (h : writeConfigStream content t (.ok errors)) : errors = refusals t := by
  unfold writeConfigStream at h
  generalize readlines content = ls at h
  induction ls generalizing t errors with
  | nil => obtain ⟨rfl, h⟩ := h; cases h; rfl
  | cons l ls ih =>
    simp only [settings] at h
    have key : ∀ p : P (List Line), (∀ t1 e, p t1 (.ok e) → e = refusals t1) →
        (do let e ← p; let es ← settings ls; Pure.pure (e ++ es) : P (List Line)) t (.ok errors) →
        errors = refusals t := by
      intro p hp hq
      cases hq with
      | @ok t1 u1 e r1 h1 hq =>
        cases hq with
        | @ok t2 u2 es r2 h2 hq =>
          obtain ⟨rfl, hq⟩ := hq
          cases hq
          rw [refusals_append, refusals_append, hp _ _ h1, ih _ _ h2]
          simp [refusals]
    split at h
    · refine key _ ?_ h
      rintro t1 e ⟨rfl, h⟩
      cases h
      rfl
    · exact key _ (fun _ _ h => setting_refusals h) h

theorem universal_id (s : List Char) (h : '\r' ∉ s) : universal s = s := by
  induction s with
  | nil => rfl
  | cons c s ih =>
    have hc : c ≠ '\r' := fun hx => h (by simp [hx])
    have := ih (fun hx => h (by simp [hx]))
    unfold universal
    split
    · rename_i heq; cases heq
    · rename_i heq; injection heq with h1 h2; exact absurd h1 hc
    · rename_i heq; injection heq with h1 h2; exact absurd h1 hc
    · rename_i heq; injection heq with h1 h2; subst h1 h2; rw [this]

/-- A line as `--dump-config` prints it: printable characters of one byte, no `#`, no whitespace at
the end. -/
structure Spec.Plain (l : Line) : Prop where
  nl : '\n' ∉ l
  cr : '\r' ∉ l
  hash : '#' ∉ l
  byte : ∀ c ∈ l, c.toNat < 256
  full : l.rdropWhile strSpace = l
  some : l ≠ []

theorem takeWhile_all (l : Line) (h : '#' ∉ l) (x : List Char) (hx : '#' ∉ x) :
    (l ++ x).takeWhile (· ≠ '#') = l ++ x := by
  rw [List.takeWhile_eq_self_iff]
  intro c hc
  have : c ≠ '#' := by
    rintro rfl
    rcases List.mem_append.mp hc with hc | hc
    · exact h hc
    · exact hx hc
  simpa using this

theorem uncomment_plain {l : Line} (h : Plain l) : uncomment (l ++ ['\n']) = l := by
  unfold uncomment rstrip
  rw [takeWhile_all l h.hash _ (by decide), List.rdropWhile_concat_pos _ _ _ (by decide), h.full]

theorem restoring_follow (ls : List Line) (h : ∀ l ∈ ls, Plain l) (more : List Line)
    (hm : ∀ l ∈ more, uncomment l = []) :
    Follows (restoring (ls.map (fun l => l ++ ['\n']) ++ more))
      (ls.map fun l => answered (txt "conf set " ++ l)) := by
  induction ls with
  | nil =>
    simp only [List.map_nil, List.nil_append]
    induction more with
    | nil => exact Follows.pure _
    | cons l more ih =>
      simp only [restoring]
      have h0 : restoring1 (uncomment l) = Pure.pure [] := by
        unfold restoring1; rw [if_pos (hm l (by simp))]
      rw [h0]
      refine Follows.bind (L1 := []) (L2 := []) (Follows.pure _) (fun _ => ?_)
      exact Follows.bind (L1 := []) (L2 := []) (ih (fun x hx => hm x (by simp [hx])))
        (fun _ => Follows.pure _)
  | cons l ls ih =>
    have hp := h l (by simp)
    simp only [List.map_cons, List.cons_append, restoring]
    rw [uncomment_plain hp]
    have h1 : restoring1 l = M.Catch (do let _ ← command (txt "conf set " ++ l); Pure.pure [])
        (fun e => if e = .command then Pure.pure [l] else M.raise e) := by
      unfold restoring1
      rw [if_neg hp.some, if_neg]
      simp only [List.any_eq_true, decide_eq_true_eq, not_exists, not_and, not_le]
      exact hp.byte
    rw [h1]
    refine Follows.bind (L1 := [_]) (Follows.attempt _) (fun e => ?_)
    have := Follows.bind (ih (fun x hx => h x (by simp [hx]))) (fun es => Follows.pure (e ++ es))
    rwa [List.append_nil] at this

/-- What was written with `--dump-config` is restored by `--restore-config`: one `conf set` for each
line, in order, then the settings are stored. -/
theorem C89_dump_restore (ls : List Line) (h : ∀ l ∈ ls, Plain l) :
    Follows (doRestoreConfig ((ls.flatMap fun l => l ++ ['\n']) ++ ['\n']))
      ((ls.map fun l => answered (txt "conf set " ++ l)) ++ [ack (txt "conf write")]) := by
  unfold doRestoreConfig
  have hcr : '\r' ∉ (ls.flatMap fun l => l ++ ['\n']) ++ ['\n'] := by
    simp only [List.mem_append, List.mem_flatMap, List.mem_singleton, not_or, not_exists, not_and]
    exact ⟨fun l hl => ⟨(h l hl).cr, by decide⟩, by decide⟩
  rw [universal_id _ hcr]
  have e1 : (ls.flatMap fun l => l ++ ['\n']) ++ ['\n'] = (ls ++ [[]]).flatMap fun l => l ++ ['\n'] := by
    simp
  rw [e1, readlines_lines]
  · rw [List.map_append]
    refine Follows.bind (restoring_follow ls h _ ?_) (fun _ => ?_)
    · intro l hl
      simp only [List.map_cons, List.map_nil, List.nil_append, List.mem_singleton] at hl
      subst hl
      decide
    · exact Follows.bind (L1 := [_]) (L2 := []) (Follows.command _) (fun _ => Follows.pure _)
  · intro l hl
    rcases List.mem_append.mp hl with hl | hl
    · exact (h l hl).nl
    · rw [List.mem_singleton.mp hl]; simp

/-- The text that `conf enumerate` gives is written as it is, and a newline. -/
theorem C89_dump (t : List Ev) (s : List Char) (h : dumpConfig t (.ok s)) :
    ∃ text, t = [.sent (txt "conf enumerate") (.ok text)] ∧ s = text ++ ['\n'] := by
  cases h with
  | ok h1 h2 =>
    obtain ⟨rfl, h⟩ := h2
    cases h
    rcases h1 with ⟨x, rfl, h⟩ | ⟨rfl, h⟩ | ⟨rfl, h⟩
    · cases h; exact ⟨_, rfl, rfl⟩
    · cases h
    · cases h

/-! ### Examples -/

/-- Lines of a configuration meet the hypotheses. -/
example : Plain (txt "servo.pid_position.kp 4.000000") :=
  ⟨by decide, by decide, by decide, by decide, by decide, by decide⟩

/-- One execution: the second of two settings is refused, the rest goes on. -/
example : writeConfigStream (txt "conf set a 1\n\nconf set b 2  \r\n")
    [.sent (txt "conf set a 1") (.ok []), .sent (txt "conf set b 2") .err]
    (.ok [txt "conf set b 2"]) := by
  have e : readlines (txt "conf set a 1\n\nconf set b 2  \r\n") =
    [txt "conf set a 1\n", txt "\n", txt "conf set b 2  \r\n"] := by decide
  unfold writeConfigStream
  rw [e]
  have h0 : rstrip bytesSpace (txt "conf set a 1\n") = txt "conf set a 1" := by decide
  have h1 : rstrip bytesSpace (txt "\n") = [] := by decide
  have h2 : rstrip bytesSpace (txt "conf set b 2  \r\n") = txt "conf set b 2" := by decide
  simp only [settings, h0, h1, h2]
  rw [if_neg (by decide), if_pos trivial, if_neg (by decide)]
  refine M.Bind.ok (t := [_]) (a := []) (M.Catch.ok (M.Bind.ok (t := [_]) (u := [])
    (Or.inl ⟨[], rfl, rfl⟩) ⟨rfl, rfl⟩)) ?_
  refine M.Bind.ok (t := [_]) (u := []) (a := [txt "conf set b 2"]) ?_ ⟨rfl, rfl⟩
  refine M.Bind.ok (t := []) (a := []) ⟨rfl, rfl⟩ ?_
  refine M.Bind.ok (t := [_]) (u := []) (a := [txt "conf set b 2"]) ?_ ⟨rfl, rfl⟩
  refine M.Bind.ok (t := [_]) (u := []) (a := [txt "conf set b 2"]) ?_ ?_
  · exact M.Catch.caught (t := [_]) (u := []) (M.Bind.raised (Or.inr (Or.inl ⟨rfl, rfl⟩)))
      (by rw [if_pos rfl]; exact ⟨rfl, rfl⟩)
  · exact M.Bind.ok (t := []) (u := []) (a := []) ⟨rfl, rfl⟩ ⟨rfl, rfl⟩

/-! ## C90: firmware -/

theorem writes_follow (ls : List Line) : Follows (writes ls) (ls.map ack) := by
  induction ls with
  | nil => exact Follows.pure _
  | cons l ls ih => exact Follows.bind (L1 := [_]) (Follows.command l) (fun _ => ih)

theorem reads_follow (ls : List (Line × (Line → Bool))) :
    Follows (reads ls) (ls.map verified) := by
  induction ls with
  | nil => exact Follows.pure _
  | cons x ls ih =>
    obtain ⟨l, check⟩ := x
    intro t r h
    simp only [reads] at h
    cases h with
    | raised h =>
      rcases h with ⟨a, rfl, h⟩ | ⟨rfl, h⟩
      · cases h
      · exact .fail ⟨none, rfl⟩
    | ok h1 h2 =>
      rcases h1 with ⟨a, rfl, h⟩ | ⟨rfl, h⟩
      · cases h
        split at h2
        · rename_i hc
          exact .cons ⟨_, rfl, hc⟩ (ih _ _ h2)
        · obtain ⟨rfl, rfl⟩ := h2
          exact .fail ⟨_, rfl⟩
      · cases h

/-- Installing a firmware, from entering the bootloader to the reset: every block is written and
then read back and compared before the flash is locked and the controller restarts. -/
def Spec.installSteps (image : Image) : List St :=
  [wrote (txt "d flash"), heard, ack (txt "unlock")] ++ image.writes.map ack ++
    image.reads.map verified ++ [ack (txt "lock"), wrote (txt "reset")]

/-- A program that never ends well. -/
def NoOk (p : P α) : Prop := ∀ t a, ¬ p t (.ok a)

theorem NoOk.bind {p : P α} {f : α → P β} (h : ∀ a, NoOk (f a)) : NoOk (p >>= f) := by
  intro t a hx
  cases hx with
  | ok _ h2 => exact h _ _ _ h2

theorem Follows.orRaise (e : Exn) (x : Option α) :
    Follows (Act.orRaise e x) [] := by
  cases x with
  | none => exact Follows.raise _ _
  | some a => exact Follows.pure _

/-- Installing and what comes after it. -/
theorem install_follow (image : Image) {k : P Unit} {L : List St} (hk : Follows k L) :
    Follows (do
      writeMessage (txt "d flash")
      listen
      let _ ← command (txt "unlock")
      writes image.writes
      reads image.reads
      let _ ← command (txt "lock")
      writeMessage (txt "reset")
      k) (installSteps image ++ L) := by
  have h : Follows (do
      writeMessage (txt "d flash")
      listen
      let _ ← command (txt "unlock")
      writes image.writes
      reads image.reads
      let _ ← command (txt "lock")
      writeMessage (txt "reset")
      k)
    ([wrote (txt "d flash")] ++ ([heard] ++ ([ack (txt "unlock")] ++ (image.writes.map ack ++
      (image.reads.map verified ++ ([ack (txt "lock")] ++ ([wrote (txt "reset")] ++ L))))))) :=
    (Follows.writeMessage _).bind fun _ => Follows.listen.bind fun _ =>
      (Follows.command _).bind fun _ => (writes_follow _).bind fun _ => (reads_follow _).bind fun _ =>
      (Follows.command _).bind fun _ => (Follows.writeMessage _).bind fun _ => hk
  simpa [installSteps] using h

/-- With an active bootloader nothing is read before and nothing is restored after. -/
theorem C90_flash_active (noRestore : Bool) (upgrade : Option Line → Option (List Char → Option (List Char)))
    (image : Image) : Follows (doFlash ⟨true, noRestore⟩ upgrade image) (installSteps image) := by
  unfold doFlash
  simp only [if_true, Bool.not_true, Bool.false_and, Bool.false_eq_true, if_false]
  rw [M.pure_then]
  refine Follows.bind (L1 := []) (Follows.orRaise _ _) (fun fix => ?_)
  rw [M.pure_then]
  have := install_follow image (Follows.pure ())
  rwa [List.append_nil] at this

/-- Without restoring: the firmware version is read first. -/
theorem C90_flash_plain (upgrade : Option Line → Option (List Char → Option (List Char)))
    (image : Image) : Follows (doFlash ⟨false, true⟩ upgrade image)
      (got (txt "firmware") :: installSteps image) := by
  unfold doFlash
  simp only [Bool.not_true, Bool.and_false, Bool.false_eq_true, if_false]
  rw [M.assoc]
  refine Follows.bind (L1 := [_]) (Follows.readData _) (fun v => ?_)
  rw [M.pure_then]
  refine Follows.bind (L1 := []) (Follows.orRaise _ _) (fun fix => ?_)
  rw [M.pure_then]
  have := install_follow image (Follows.pure ())
  rwa [List.append_nil] at this

/-- Installing a firmware: version and settings are read before anything is changed; the firmware is
installed; then the settings, adapted by `FirmwareUpgrade`, are set, stored, and the controller
restarts.  After a failure nothing more is sent. -/
theorem C90_flash (upgrade : Option Line → Option (List Char → Option (List Char)))
    (image : Image) (t : List Ev) (r : Res Exn Unit) (h : doFlash ⟨false, false⟩ upgrade image t r) :
    ∃ tail, Runs ([got (txt "firmware"), ack (txt "conf enumerate")] ++ installSteps image ++ tail) t
        (isOk r) ∧
      ((tail = [] ∧ isOk r = false) ∨
       ∃ v fix saved new, ∃ (ls : List Line) (last : Line),
        .data (txt "firmware") (some v) ∈ t ∧ upgrade (some v) = some fix ∧
        .sent (txt "conf enumerate") (.ok saved) ∈ t ∧ fix saved = some new ∧
        (∀ l ∈ ls, '\n' ∉ l) ∧ '\n' ∉ last ∧ new = (ls.flatMap fun l => l ++ ['\n']) ++ last ∧
        tail = restoreSteps (ls ++ [last])) := by
  unfold doFlash at h
  simp only [if_true, Bool.not_false, Bool.and_self, Bool.false_eq_true, if_false] at h
  rw [M.assoc] at h
  cases h with
  | raised h =>
    rcases h with ⟨v, rfl, hx⟩ | ⟨rfl, e, hx⟩
    · cases hx
    · exact ⟨[], .fail ⟨_, rfl⟩, Or.inl ⟨rfl, rfl⟩⟩
  | ok h1 h =>
    rcases h1 with ⟨v, rfl, hx⟩ | ⟨rfl, e, hx⟩
    swap
    · cases hx
    cases hx
    rw [M.pure_then] at h
    rename_i v
    cases hu : upgrade (some v) with
    | none =>
      rw [hu] at h
      cases h with
      | ok h1 h => obtain ⟨-, hx⟩ := h1; cases hx
      | raised h1 =>
        obtain ⟨rfl, hx⟩ := h1
        exact ⟨[], .cons ⟨_, rfl⟩ .stop, Or.inl ⟨rfl, rfl⟩⟩
    | some fix =>
      rw [hu] at h
      simp only [orRaise] at h
      rw [M.pure_then] at h
      cases h with
      | raised h =>
        refine ⟨[], .cons ⟨_, rfl⟩ ?_, Or.inl ⟨rfl, rfl⟩⟩
        rcases h with ⟨x, rfl, hx⟩ | ⟨rfl, hx⟩ | ⟨rfl, hx⟩
        · cases hx
        · exact .fail ⟨_, rfl⟩
        · exact .fail ⟨_, rfl⟩
      | ok h1 h =>
        rcases h1 with ⟨saved, rfl, hx⟩ | ⟨rfl, hx⟩ | ⟨rfl, hx⟩
        · cases hx
          rename_i saved
          cases hf : fix saved with
          | none =>
            rw [hf] at h
            have hk : Follows (do let new ← (orRaise .other none : P (List Char))
                                  let _ ← restoreConfig new
                                  Pure.pure ()) [] := by
              intro t r hh
              cases hh with
              | ok h1 h => obtain ⟨-, hx⟩ := h1; cases hx
              | raised h1 => obtain ⟨rfl, hx⟩ := h1; exact .stop
            have hr := install_follow image hk _ _ h
            have hb : isOk r = false := by
              cases r with
              | raised e => rfl
              | ok a =>
                refine absurd h (NoOk.bind (fun _ => NoOk.bind fun _ => NoOk.bind fun _ =>
                  NoOk.bind fun _ => NoOk.bind fun _ => NoOk.bind fun _ => NoOk.bind fun _ => ?_) _ _)
                intro t a hh
                cases hh with
                | ok h1 h => obtain ⟨-, hx⟩ := h1; cases hx
            refine ⟨[], ?_, Or.inl ⟨rfl, hb⟩⟩
            exact .cons ⟨_, rfl⟩ (.cons ⟨_, rfl⟩ hr)
          | some new =>
            obtain ⟨ls, last, g1, g2, g3⟩ := C89_lines new
            rw [hf] at h
            have hk : Follows (do let new ← (orRaise .other (some new) : P (List Char))
                                  let _ ← restoreConfig new
                                  Pure.pure ()) (restoreSteps (ls ++ [last])) := by
              simp only [orRaise]
              rw [M.pure_then, g3]
              have := Follows.bind (C89_restore ls last g1 g2) (fun _ => Follows.pure ())
              rwa [List.append_nil] at this
            have hr := install_follow image hk _ _ h
            refine ⟨restoreSteps (ls ++ [last]), .cons ⟨_, rfl⟩ (.cons ⟨_, rfl⟩ hr), Or.inr
              ⟨v, fix, saved, new, ls, last, by simp, hu, by simp, hf, g1, g2, g3, rfl⟩⟩
        · cases hx
        · cases hx

/-- An execution of the whole: a firmware of one block, one setting. -/
example : doFlash ⟨false, false⟩ (fun _ => some some)
    ⟨[txt "w 8000000 01"], [(txt "r 8000000 1", fun a => a = txt "8000000 01")]⟩
    [.data (txt "firmware") (some (txt "1")), .sent (txt "conf enumerate") (.ok (txt "a 1\n")),
     .wrote (txt "d flash"), .listened, .sent (txt "unlock") (.ok []),
     .sent (txt "w 8000000 01") (.ok []), .asked (txt "r 8000000 1") (some (txt "8000000 02"))]
    (.raised .runtime) := by
  unfold doFlash
  simp only [if_true, Bool.not_false, Bool.and_self, Bool.false_eq_true, if_false]
  rw [M.assoc]
  refine M.Bind.ok (t := [_]) (Or.inl ⟨txt "1", rfl, rfl⟩) ?_
  rw [M.pure_then]
  refine M.Bind.ok (t := []) ⟨rfl, rfl⟩ ?_
  refine M.Bind.ok (t := [_]) (Or.inl ⟨_, rfl, rfl⟩) ?_
  refine M.Bind.ok (t := [_]) ⟨rfl, Or.inl rfl⟩ ?_
  refine M.Bind.ok (t := [_]) ⟨rfl, Or.inl rfl⟩ ?_
  refine M.Bind.ok (t := [_]) (Or.inl ⟨_, rfl, rfl⟩) ?_
  refine M.Bind.ok (t := [_]) (a := ()) ?_ ?_
  · exact M.Bind.ok (t := [_]) (u := []) (Or.inl ⟨_, rfl, rfl⟩) ⟨rfl, rfl⟩
  · refine M.Bind.raised ?_
    refine M.Bind.ok (t := [_]) (u := []) (Or.inl ⟨_, rfl, rfl⟩) ?_
    rw [if_neg (by decide)]
    exact ⟨rfl, rfl⟩

/-! ## Offset -/

/-- Setting the offset: the new command, stored and applied; or, only for 0 and only if that was
refused, the old setting. -/
theorem C90_offset (stats : Line → Nat × Line) (value : Line) (isZero : Bool) (t : List Ev)
    (r : Res Exn Unit) (h : doSetOffset stats value isZero t r) :
    Runs [ack (txt "d cfg-set-output " ++ value), ack (txt "conf write"),
      ack (txt "d rezero " ++ value)] t (isOk r) ∨
    (isZero = true ∧ ∃ raw, Runs [refused (txt "d cfg-set-output " ++ value),
      got (txt "servo_stats"), ack (txt "conf set motor.position_offset " ++ raw),
      ack (txt "conf write"), ack (txt "d rezero " ++ value)] t (isOk r)) := by
  have tail : Follows (do
      let _ ← command (txt "conf write")
      let _ ← command (txt "d rezero " ++ value)
      Pure.pure ()) [ack (txt "conf write"), ack (txt "d rezero " ++ value)] :=
    Follows.bind (L1 := [_]) (Follows.command _) fun _ =>
      Follows.bind (L1 := [_]) (L2 := []) (Follows.command _) fun _ => Follows.pure _
  unfold doSetOffset at h
  have step1 : ∀ t r, M.Catch (do let _ ← command (txt "d cfg-set-output " ++ value); Pure.pure ())
      (fun e => if e = .command then do
        if isZero then do
          let s ← readData (txt "servo_stats")
          if (stats s).1 = 1 then M.raise .runtime else do
          let _ ← command (txt "conf set motor.position_offset " ++ (stats s).2)
          Pure.pure ()
        else M.raise .runtime
      else M.raise e) t r →
      Runs [ack (txt "d cfg-set-output " ++ value)] t (isOk r) ∨
      (isZero = true ∧ ∃ raw, Runs [refused (txt "d cfg-set-output " ++ value),
        got (txt "servo_stats"), ack (txt "conf set motor.position_offset " ++ raw)] t (isOk r)) := by
    intro t r h
    cases h with
    | ok hp =>
      left
      exact (Follows.bind (L1 := [_]) (L2 := []) (Follows.command _) fun _ => Follows.pure _) _ _ hp
    | caught hp hh =>
      cases hp with
      | ok h1 h2 => obtain ⟨-, hx⟩ := h2; cases hx
      | raised h1 =>
        rcases h1 with ⟨x, rfl, hx⟩ | ⟨rfl, hx⟩ | ⟨rfl, hx⟩
        · cases hx
        · cases hx
          rw [if_pos rfl] at hh
          cases isZero with
          | false =>
            left
            simp only [Bool.false_eq_true, if_false] at hh
            obtain ⟨rfl, rfl⟩ := hh
            exact .fail ⟨_, rfl⟩
          | true =>
            right
            refine ⟨rfl, ?_⟩
            simp only [if_true] at hh
            cases hh with
            | raised h2 =>
              refine ⟨[], .cons rfl ?_⟩
              rcases h2 with ⟨x, rfl, hx⟩ | ⟨rfl, e, hx⟩
              · cases hx
              · exact .fail ⟨_, rfl⟩
            | ok h2 h3 =>
              rcases h2 with ⟨x, rfl, hx⟩ | ⟨rfl, e, hx⟩
              · cases hx
                rename_i x
                refine ⟨(stats x).2, .cons rfl (.cons ⟨_, rfl⟩ ?_)⟩
                split at h3
                · obtain ⟨rfl, rfl⟩ := h3; exact .stop
                · exact (Follows.bind (L1 := [_]) (L2 := []) (Follows.command _)
                    fun _ => Follows.pure _) _ _ h3
              · cases hx
        · cases hx
          rw [if_neg (by decide)] at hh
          obtain ⟨rfl, rfl⟩ := hh
          left
          exact .fail ⟨_, rfl⟩
  cases h with
  | raised h1 =>
    rcases step1 _ _ h1 with h | ⟨hz, raw, h⟩
    · exact Or.inl (Runs.prefix (L1 := [_]) _ h)
    · exact Or.inr ⟨hz, raw, Runs.prefix (L1 := [_, _, _]) _ h⟩
  | ok h1 h2 =>
    rcases step1 _ _ h1 with h | ⟨hz, raw, h⟩
    · exact Or.inl (Runs.append (L1 := [_]) h (tail _ _ h2))
    · exact Or.inr ⟨hz, raw, Runs.append (L1 := [_, _, _]) h (tail _ _ h2)⟩

/-- An old firmware. -/
example (stats : Line → Nat × Line) (hs : stats (txt "s") = (0, txt "-5")) :
    doSetOffset stats (txt "0.0") true [.sent (txt "d cfg-set-output 0.0") .err,
      .data (txt "servo_stats") (some (txt "s")),
      .sent (txt "conf set motor.position_offset -5") (.ok []),
      .sent (txt "conf write") (.ok []), .sent (txt "d rezero 0.0") (.ok [])] (.ok ()) := by
  unfold doSetOffset
  refine M.Bind.ok (t := [_, _, _]) (a := ()) ?_ ?_
  · refine M.Catch.caught (t := [_]) (u := [_, _]) (M.Bind.raised (Or.inr (Or.inl ⟨rfl, rfl⟩))) ?_
    rw [if_pos rfl]
    simp only [if_true]
    refine M.Bind.ok (t := [_]) (u := [_]) (Or.inl ⟨_, rfl, rfl⟩) ?_
    rw [hs, if_neg (by decide)]
    exact M.Bind.ok (t := [_]) (u := []) (Or.inl ⟨_, rfl, rfl⟩) ⟨rfl, rfl⟩
  · refine M.Bind.ok (t := [_]) (Or.inl ⟨_, rfl, rfl⟩) ?_
    exact M.Bind.ok (t := [_]) (u := []) (Or.inl ⟨_, rfl, rfl⟩) ⟨rfl, rfl⟩

/-! ## Restoring a calibration -/

namespace Spec

/-- What the controller says it supports. -/
structure Caps where
  sign : Bool
  phaseInvert : Bool
  vPerHz : Bool
  kv : Bool
  pll : Bool
  filter : Bool

/-- A question whether a setting exists, with the answer. -/
def supports (name : Line) (b : Bool) : St :=
  ⟨fun e => ∃ a, e = .asked (txt "conf get " ++ name) a,
   fun e => ∃ a, e = .asked (txt "conf get " ++ name) (some a) ∧ (b = true ↔ ¬ txt "ERR" <+: a)⟩

/-- A setting. -/
def setsTo (name : String) (value : Line) : St :=
  ack (txt "conf set " ++ txt name ++ [' '] ++ value)

/-- A setting whose value may be missing. -/
def setsIf (name : String) : Option Line → List St
  | some v => [setsTo name v]
  | none => []

/-- Values that are not zero. -/
def nonzero : Option Line → Option Line
  | some v => if v = txt "0" ∨ v = txt "0.0" ∨ v = txt "-0.0" then none else some v
  | none => none

/-- The offsets. -/
def offsetSteps (i : Nat) : List Line → List St
  | [] => []
  | v :: vs => ack (txt "conf set " ++ (txt "motor.offset." ++ txt (toString i)) ++ [' '] ++ v)
      :: offsetSteps (i + 1) vs

/-- The filter of the encoder. -/
def filterSteps (r : Report) (k : Caps) : List St :=
  let old := supports (txt "servo.encoder_filter.kp") k.filter ::
    if k.filter then setsIf "servo.encoder_filter.kp" (nonzero r.encKp) ++
      setsIf "servo.encoder_filter.ki" (nonzero r.encKi) else []
  match nonzero r.encHz with
  | some v => supports (txt "motor_position.sources.0.pll_filter_hz") k.pll ::
    if k.pll then [setsTo "motor_position.sources.0.pll_filter_hz" v] else old
  | none => old

/-- What is expected when a calibration is restored. -/
def calSteps (r : Report) (k : Caps) : List St :=
  [got (txt "firmware"), got (txt "git"), answered (txt "conf enumerate uuid"),
   setsTo "motor.poles" (r.poles.getD []),
   supports (txt "motor_position.sources.0.sign") k.sign,
   if k.sign then setsTo "motor_position.sources.0.sign"
     (txt (if r.invert = some true then "-1" else "1"))
   else setsTo "motor.invert" (txt (if r.invert = some true then "1" else "0")),
   supports (txt "motor.phase_invert") k.phaseInvert] ++
  (if k.phaseInvert then
    [setsTo "motor.phase_invert" (txt (if r.phaseInvert = some true then "1" else "0"))] else []) ++
  offsetSteps 0 (r.offsets.getD []) ++
  [setsTo "motor.resistance_ohm" (r.resistance.getD []),
   supports (txt "motor.v_per_hz") k.vPerHz] ++
  (if k.vPerHz then [setsTo "motor.v_per_hz" (r.vPerHz.getD [])]
   else supports (txt "motor.Kv") k.kv ::
     if k.kv then [setsTo "motor.Kv" (r.kv.getD [])] else []) ++
  setsIf "servo.pid_dq.kp" r.kp ++ setsIf "servo.pid_dq.ki" r.ki ++
  filterSteps r k ++
  [ack (txt "conf write")]

end Spec

/-- A program that does what the list says, for some answers. -/
def Fol {B α : Type} (p : P α) (F : B → List St) : Prop :=
  ∀ t r, p t r → ∃ b, Runs (F b) t (isOk r)

theorem Follows.fol {B : Type} [Nonempty B] {p : P α} {L : List St} (h : Follows p L) :
    Fol p (fun _ : B => L) := fun t r hp => ⟨Classical.arbitrary B, h t r hp⟩

theorem Fol.bind {B : Type} [Nonempty B] {p : P α} {f : α → P β} {L : List St} {F : B → List St}
    (h1 : Follows p L) (h2 : ∀ a, Fol (f a) F) : Fol (p >>= f) (fun b => L ++ F b) := by
  intro t r h
  cases h with
  | ok hp hf =>
    obtain ⟨b, hb⟩ := h2 _ _ _ hf
    exact ⟨b, Runs.append (h1 _ _ hp) hb⟩
  | raised hp => exact ⟨Classical.arbitrary B, Runs.prefix _ (h1 _ _ hp)⟩

theorem Fol.supported {B : Type} [Nonempty B] (name : Line) {f : Bool → P β}
    {F : Bool → B → List St} (h : ∀ b, Fol (f b) (F b)) :
    Fol (supported name >>= f) (fun b : Bool × B => Spec.supports name b.1 :: F b.1 b.2) := by
  intro t r hx
  have hs : ∀ t x, Act.supported name t x →
      (∃ b, x = .ok b ∧ ∃ a, t = [.asked (txt "conf get " ++ name) (some a)] ∧
        (b = true ↔ ¬ txt "ERR" <+: a)) ∨
      ((∃ e, x = .raised e) ∧ ∃ a, t = [.asked (txt "conf get " ++ name) a]) := by
    intro t x h
    unfold Act.supported at h
    cases h with
    | raised h =>
      rcases h with ⟨x, rfl, hx⟩ | ⟨rfl, hx⟩
      · cases hx
      · exact Or.inr ⟨⟨_, rfl⟩, _, rfl⟩
    | ok h1 h2 =>
      rcases h1 with ⟨x, rfl, hx⟩ | ⟨rfl, hx⟩
      · cases hx
        rename_i x
        have hp : x.take 3 = txt "ERR" ↔ txt "ERR" <+: x := by
          constructor
          · intro h; rw [← h]; exact List.take_prefix _ _
          · intro h; exact (List.prefix_iff_eq_take.mp h).symm
        split at h2
        · rename_i he
          split at h2
          · obtain ⟨rfl, rfl⟩ := h2
            exact Or.inl ⟨false, rfl, x, by simp, by simp [hp.mp he]⟩
          · obtain ⟨rfl, rfl⟩ := h2
            exact Or.inr ⟨⟨_, rfl⟩, some x, by simp⟩
        · rename_i he
          obtain ⟨rfl, rfl⟩ := h2
          exact Or.inl ⟨true, rfl, x, by simp, by simp [mt hp.mpr he]⟩
      · cases hx
  cases hx with
  | raised hp =>
    rcases hs _ _ hp with ⟨b, hb, -⟩ | ⟨-, a, rfl⟩
    · cases hb
    · exact ⟨Classical.arbitrary _, .fail ⟨_, rfl⟩⟩
  | ok hp hf =>
    rcases hs _ _ hp with ⟨b, hb, a, rfl, ha⟩ | ⟨⟨e, he⟩, -⟩
    · injection hb with hb
      subst hb
      obtain ⟨c, hc⟩ := h _ _ _ hf
      exact ⟨(_, c), .cons ⟨a, rfl, ha⟩ hc⟩
    · cases he

theorem Follows.set (name value : Line) :
    Follows (Act.set name value) [ack (txt "conf set " ++ name ++ [' '] ++ value)] := by
  unfold Act.set
  exact Follows.bind (L1 := [_]) (L2 := []) (Follows.command _) fun _ => Follows.pure _

theorem Follows.setOffsets (i : Nat) (vs : List Line) :
    Follows (Act.setOffsets i vs) (Spec.offsetSteps i vs) := by
  induction vs generalizing i with
  | nil => exact Follows.pure _
  | cons v vs ih =>
    simp only [Act.setOffsets, Spec.offsetSteps]
    have := Follows.bind (L1 := [_]) (Follows.set (txt "motor.offset." ++ txt (toString i)) v)
      (fun _ => ih (i + 1))
    simpa using this

theorem Fol.then {B C : Type} [Nonempty C] {p : P α} {f : α → P β} {F : B → List St}
    {G : C → List St} (h1 : Fol p F) (h2 : ∀ a, Fol (f a) G) :
    Fol (p >>= f) (fun b : B × C => F b.1 ++ G b.2) := by
  intro t r h
  cases h with
  | ok hp hf =>
    obtain ⟨b, hb⟩ := h1 _ _ hp
    obtain ⟨c, hc⟩ := h2 _ _ _ hf
    exact ⟨(b, c), Runs.append hb hc⟩
  | raised hp =>
    obtain ⟨b, hb⟩ := h1 _ _ hp
    exact ⟨(b, Classical.arbitrary C), Runs.prefix _ hb⟩

theorem Fol.orRaise {B : Type} [Nonempty B] (e : Exn) (x : Option α) {f : α → P β}
    {F : B → List St} (h : ∀ a, x = some a → Fol (f a) F) : Fol (Act.orRaise e x >>= f) F := by
  intro t r hp
  cases x with
  | some a =>
    unfold Act.orRaise at hp
    rw [M.pure_then] at hp
    exact h a rfl _ _ hp
  | none =>
    cases hp with
    | raised hp => obtain ⟨rfl, -⟩ := hp; exact ⟨Classical.arbitrary B, .stop⟩
    | ok hp _ => obtain ⟨-, hx⟩ := hp; cases hx

theorem Fol.conv {B C : Type} {p : P α} {F : B → List St} {G : C → List St} (h : Fol p F)
    (hg : ∀ b, ∃ c, F b = G c) : Fol p G := by
  intro t r hp
  obtain ⟨b, hb⟩ := h _ _ hp
  obtain ⟨c, hc⟩ := hg b
  exact ⟨c, hc ▸ hb⟩

theorem Fol.guard {B : Type} [Nonempty B] {q : P α} {F : B → List St} (c : Prop) [Decidable c]
    (e : Exn) (h : Fol q F) : Fol (if c then M.raise e else q) F := by
  split
  · exact fun t r h => ⟨Classical.arbitrary _, Follows.raise _ _ t r h⟩
  · exact h

theorem sign_fol (r : Report) : Fol (restoreSign r) (fun b : Bool × Unit =>
    [supports (txt "motor_position.sources.0.sign") b.1,
     if b.1 then setsTo "motor_position.sources.0.sign"
       (txt (if r.invert = some true then "-1" else "1"))
     else setsTo "motor.invert" (txt (if r.invert = some true then "1" else "0"))]) := by
  unfold restoreSign
  refine Fol.supported (F := fun b _ => [if b then setsTo "motor_position.sources.0.sign"
       (txt (if r.invert = some true then "-1" else "1"))
     else setsTo "motor.invert" (txt (if r.invert = some true then "1" else "0"))]) _ fun b => ?_
  cases b
  · refine Fol.orRaise _ _ fun a ha => ?_
    rw [ha]
    have := Follows.set (txt "motor.invert") (txt (if a then "1" else "0"))
    cases a <;> exact this.fol
  · refine Fol.orRaise _ _ fun a ha => ?_
    rw [ha]
    have := Follows.set (txt "motor_position.sources.0.sign") (txt (if a then "-1" else "1"))
    cases a <;> exact this.fol

theorem phase_fol (r : Report) : Fol (restorePhase r) (fun b : Bool × Unit =>
    supports (txt "motor.phase_invert") b.1 :: if b.1 then
      [setsTo "motor.phase_invert" (txt (if r.phaseInvert = some true then "1" else "0"))]
      else []) := by
  unfold restorePhase
  refine Fol.supported (F := fun b _ => if b then
      [setsTo "motor.phase_invert" (txt (if r.phaseInvert = some true then "1" else "0"))]
      else []) _ fun b => ?_
  cases b
  · exact (Follows.pure _).fol
  · have := Follows.set (txt "motor.phase_invert")
      (txt (if r.phaseInvert.getD false then "1" else "0"))
    have h2 : (r.phaseInvert.getD false = true) ↔ r.phaseInvert = some true := by
      cases r.phaseInvert with
      | none => simp
      | some b => simp
    simp only [h2] at this ⊢
    exact this.fol

theorem constant_fol (r : Report) : Fol (restoreConstant r) (fun b : Bool × Bool × Unit =>
    supports (txt "motor.v_per_hz") b.1 ::
      if b.1 then [setsTo "motor.v_per_hz" (r.vPerHz.getD [])]
      else supports (txt "motor.Kv") b.2.1 ::
        if b.2.1 then [setsTo "motor.Kv" (r.kv.getD [])] else []) := by
  unfold restoreConstant
  refine Fol.supported (F := fun b (c : Bool × Unit) => if b then [setsTo "motor.v_per_hz" (r.vPerHz.getD [])]
      else supports (txt "motor.Kv") c.1 ::
        if c.1 then [setsTo "motor.Kv" (r.kv.getD [])] else []) _ fun b => ?_
  cases b
  · simp only [Bool.false_eq_true, if_false]
    refine Fol.supported (F := fun b (_ : Unit) =>
      if b then [setsTo "motor.Kv" (r.kv.getD [])] else []) _ fun b => ?_
    cases b
    · exact (Follows.pure _).fol
    · refine Fol.orRaise _ _ fun a ha => ?_
      rw [ha]
      exact (Follows.set (txt "motor.Kv") a).fol
  · refine Fol.orRaise _ _ fun a ha => ?_
    rw [ha]
    exact (Follows.set (txt "motor.v_per_hz") a).fol

theorem Follows.setSome (name : String) (v : Option Line) :
    Follows (Act.setSome (txt name) v) (setsIf name v) := by
  cases v with
  | none => exact Follows.pure _
  | some v => exact Follows.set (txt name) v

theorem truthy_nonzero (v : Option Line) : truthy v = true ↔ ∃ x, nonzero v = some x ∧ v = some x := by
  cases v with
  | none => simp [truthy, nonzero]
  | some v =>
    simp only [truthy, nonzero, Bool.and_eq_true, decide_eq_true_eq, Option.some.injEq]
    split
    · rename_i h
      constructor
      · rintro ⟨⟨h1, h2⟩, h3⟩
        rcases h with h | h | h
        · exact absurd h h1
        · exact absurd h h2
        · exact absurd h h3
      · rintro ⟨x, hx, -⟩; cases hx
    · rename_i h
      constructor
      · intro _; exact ⟨v, rfl, rfl⟩
      · intro _
        exact ⟨⟨fun hx => h (.inl hx), fun hx => h (.inr (.inl hx))⟩, fun hx => h (.inr (.inr hx))⟩

theorem not_truthy {v : Option Line} (h : ¬ truthy v = true) : nonzero v = none := by
  cases hn : nonzero v with
  | none => rfl
  | some x =>
    refine absurd ((truthy_nonzero v).mpr ⟨x, hn, ?_⟩) h
    cases v with
    | none => cases hn
    | some v =>
      simp only [nonzero] at hn
      split at hn
      · cases hn
      · exact hn

theorem Follows.setIf (name : String) (v : Option Line) :
    Follows (Act.setIf (txt name) v) (setsIf name (nonzero v)) := by
  unfold Act.setIf
  split
  · rename_i h
    obtain ⟨x, h1, h2⟩ := (truthy_nonzero v).mp h
    rw [h1, h2]
    exact Follows.set (txt name) x
  · rename_i h
    rw [not_truthy h]
    exact Follows.pure _

/-- The steps with the filter under its old name. -/
def oldSteps (r : Report) (b : Bool) : List St :=
  supports (txt "servo.encoder_filter.kp") b ::
    if b then setsIf "servo.encoder_filter.kp" (nonzero r.encKp) ++
      setsIf "servo.encoder_filter.ki" (nonzero r.encKi) else []

theorem old_fol (r : Report) : Fol (restoreOldFilter r) (fun b : Bool × Unit => oldSteps r b.1) := by
  unfold restoreOldFilter oldSteps
  refine Fol.supported (F := fun b _ =>
    if b then setsIf "servo.encoder_filter.kp" (nonzero r.encKp) ++
      setsIf "servo.encoder_filter.ki" (nonzero r.encKi) else []) _ fun b => ?_
  cases b
  · exact (Follows.pure _).fol
  · exact (Follows.bind (Follows.setIf _ _) fun _ => Follows.setIf _ _).fol

theorem filter_fol (r : Report) : Fol (restoreFilter r) (fun b : Bool × Bool × Unit =>
    match nonzero r.encHz with
    | some v => supports (txt "motor_position.sources.0.pll_filter_hz") b.1 ::
      if b.1 then [setsTo "motor_position.sources.0.pll_filter_hz" v] else oldSteps r b.2.1
    | none => oldSteps r b.2.1) := by
  unfold restoreFilter
  split
  · rename_i h
    obtain ⟨x, h1, h2⟩ := (truthy_nonzero _).mp h
    rw [h1, h2]
    refine Fol.supported (F := fun b (c : Bool × Unit) => if b then
      [setsTo "motor_position.sources.0.pll_filter_hz" x] else oldSteps r c.1) _ fun b => ?_
    cases b
    · exact old_fol r
    · exact (Follows.set (txt "motor_position.sources.0.pll_filter_hz") x).fol
  · rename_i h
    rw [not_truthy h]
    exact (old_fol r).conv fun b => ⟨(true, b), rfl⟩

theorem readUuid_follows : Follows readUuid [answered (txt "conf enumerate uuid")] := by
  have hp : ∀ t (x : Res Exn Unit), perhaps t x → t = [] := fun t x h => h.1
  intro t r h
  unfold readUuid at h
  have run : ∀ t (r : Res Exn Unit),
      (do let _ ← command (txt "conf enumerate uuid"); perhaps : P Unit) t r →
      (∃ x, t = [.sent (txt "conf enumerate uuid") (.ok x)]) ∨
      (t = [.sent (txt "conf enumerate uuid") .err] ∧ r = .raised .command) ∨
      (t = [.sent (txt "conf enumerate uuid") .lost] ∧ r = .raised .other) := by
    intro t r h
    cases h with
    | ok h1 h2 =>
      rcases h1 with ⟨x, rfl, hx⟩ | ⟨rfl, hx⟩ | ⟨rfl, hx⟩
      · exact Or.inl ⟨x, by rw [hp _ _ h2]; rfl⟩
      · cases hx
      · cases hx
    | raised h1 =>
      rcases h1 with ⟨x, rfl, hx⟩ | ⟨rfl, hx⟩ | ⟨rfl, hx⟩
      · cases hx
      · cases hx; exact Or.inr (Or.inl ⟨rfl, rfl⟩)
      · cases hx; exact Or.inr (Or.inr ⟨rfl, rfl⟩)
  have fin : ∀ b, Runs ([] : List St) [] b := fun b => by cases b; exact .stop; exact .done
  cases h with
  | ok h1 =>
    rcases run _ _ h1 with ⟨x, rfl⟩ | ⟨-, hx⟩ | ⟨-, hx⟩
    · exact .cons (Or.inl ⟨x, rfl⟩) .done
    · cases hx
    · cases hx
  | @caught t1 e u r h1 h2 =>
    have hu : u = [] := by
      split at h2
      · exact hp _ _ h2
      · exact h2.1
    subst hu
    rw [List.append_nil]
    rcases run _ _ h1 with ⟨x, rfl⟩ | ⟨rfl, hx⟩ | ⟨rfl, hx⟩
    · exact .cons (Or.inl ⟨x, rfl⟩) (fin _)
    · exact .cons (Or.inr rfl) (fin _)
    · cases hx
      rw [if_neg (by decide)] at h2
      obtain ⟨-, rfl⟩ := h2
      exact .fail ⟨_, rfl⟩

/-- Restoring a calibration: identification, then the values in this order, each acknowledged
before the next; the storing comes last and only after all others succeeded.  Which names are used
follows the answers of the controller. -/
theorem C90_calibration (serialOf : Line → Line) (r : Report) (t : List Ev) (x : Res Exn Unit)
    (h : doRestoreCalibration serialOf r t x) : ∃ k, Runs (calSteps r k) t (isOk x) := by
  refine (?_ : Fol (doRestoreCalibration serialOf r) (calSteps r)) t x h
  unfold doRestoreCalibration
  have w : Follows (do let _ ← command (txt "conf write"); Pure.pure ())
      [ack (txt "conf write")] :=
    Follows.bind (L1 := [_]) (L2 := []) (Follows.command _) fun _ => Follows.pure _
  have v1 := Fol.then (filter_fol r) fun _ => w.fol (B := Unit)
  have v2 := Fol.bind (Follows.setSome "servo.pid_dq.ki" r.ki) fun _ => v1
  have v3 := Fol.bind (Follows.setSome "servo.pid_dq.kp" r.kp) fun _ => v2
  have v4 := Fol.then (constant_fol r) fun _ => v3
  have v5 := fun (x : Line) (hx : r.resistance = some x) => Fol.bind
    (L := [setsTo "motor.resistance_ohm" (r.resistance.getD [])])
    (by rw [hx]; exact Follows.set (txt "motor.resistance_ohm") x) fun _ => v4
  have v6 := Fol.orRaise .key r.resistance v5
  have v7 := fun (x : List Line) (hx : r.offsets = some x) => Fol.bind
    (L := offsetSteps 0 (r.offsets.getD []))
    (by rw [hx]; exact Follows.setOffsets 0 x) fun _ => v6
  have v8 := Fol.orRaise .key r.offsets v7
  have v9 := Fol.then (phase_fol r) fun _ => v8
  have v10 := Fol.then (sign_fol r) fun _ => v9
  have v11 := fun (x : Line) (hx : r.poles = some x) => Fol.bind
    (L := [setsTo "motor.poles" (r.poles.getD [])])
    (by rw [hx]; exact Follows.set (txt "motor.poles") x) fun _ => v10
  have vals := Fol.orRaise .key r.poles v11
  have s1 := fun (firmware serial : Line) (_ : r.serial = some serial) =>
    Fol.guard (serialOf firmware ≠ serial) .key vals
  have s2 := fun (firmware : Line) => Fol.orRaise .key r.serial (s1 firmware)
  have s3 := fun (firmware : Line) => Fol.bind readUuid_follows fun _ => s2 firmware
  have s4 := fun (firmware : Line) => Fol.bind (Follows.readData (txt "git")) fun _ => s3 firmware
  have all := Fol.bind (Follows.readData (txt "firmware")) s4
  refine Fol.conv all fun b => ?_
  refine ⟨⟨b.1.1, b.2.1.1, b.2.2.1.1, b.2.2.1.2.1, b.2.2.2.1.1, b.2.2.2.1.2.1⟩, ?_⟩
  simp [calSteps, filterSteps, oldSteps]

/-- Nothing is set before the serial number of the controller was found to be the one of the
report. -/
theorem C90_calibration_serial (serialOf : Line → Line) (r : Report) (t : List Ev)
    (x : Res Exn Unit) (h : doRestoreCalibration serialOf r t x) (c : Line) (a : Reply)
    (hc : Ev.sent c a ∈ t) (hn : c ≠ txt "conf enumerate uuid") :
    ∃ f, Ev.data (txt "firmware") (some f) ∈ t ∧ r.serial = some (serialOf f) := by
  unfold doRestoreCalibration at h
  have other : ∀ {u : List Ev} {b : Bool} {l : Line}, Runs [got l] u b → Ev.sent c a ∉ u := by
    intro u b l hu hm
    cases hu with
    | stop => simp at hm
    | fail hs => obtain ⟨v, rfl⟩ := hs; simp at hm
    | cons hs hr =>
      obtain ⟨v, rfl⟩ := hs
      cases hr <;> simp at hm
  have uuid : ∀ {u : List Ev} {b : Bool}, Runs [answered (txt "conf enumerate uuid")] u b →
      Ev.sent c a ∉ u := by
    intro u b hu hm
    cases hu with
    | stop => simp at hm
    | fail hs => obtain ⟨v, rfl⟩ := hs; simp [hn] at hm
    | cons hs hr =>
      rcases hs with ⟨v, rfl⟩ | rfl <;> cases hr <;> simp [hn] at hm
  cases h with
  | raised h => exact absurd hc (other (Follows.readData _ _ _ h))
  | ok h1 h =>
    rcases h1 with ⟨f, rfl, hx⟩ | ⟨-, e, hx⟩
    swap
    · cases hx
    injection hx with hx
    subst hx
    refine ⟨_, List.mem_append_left _ (List.mem_singleton.mpr rfl), ?_⟩
    rcases List.mem_append.mp hc with hc | hc
    · simp at hc
    cases h with
    | raised h => exact absurd hc (other (Follows.readData _ _ _ h))
    | ok h2 h =>
      rcases List.mem_append.mp hc with hc | hc
      · exact absurd hc (other (Follows.readData _ _ _ h2))
      cases h with
      | raised h => exact absurd hc (uuid (readUuid_follows _ _ h))
      | ok h3 h =>
        rcases List.mem_append.mp hc with hc | hc
        · exact absurd hc (uuid (readUuid_follows _ _ h3))
        cases hs : r.serial with
        | none =>
          rw [hs] at h
          cases h with
          | raised h => obtain ⟨rfl, -⟩ := h; simp at hc
          | ok h _ => obtain ⟨-, hx⟩ := h; cases hx
        | some s =>
          rw [hs] at h
          unfold Act.orRaise at h
          rw [M.pure_then] at h
          split at h
          · obtain ⟨rfl, -⟩ := h; simp at hc
          · rename_i he
            rw [not_not] at he
            rw [he]

/-- An execution in which the number of poles is refused: the calibration is not stored. -/
example : doRestoreCalibration id
    ⟨some (txt "A"), some (txt "14"), some true, none, some [], none, none, none, none, none, none,
      none, none⟩
    [.data (txt "firmware") (some (txt "A")), .data (txt "git") (some []),
      .sent (txt "conf enumerate uuid") .err, .sent (txt "conf set motor.poles 14") .err]
    (.raised .command) := by
  unfold doRestoreCalibration
  refine M.Bind.ok (t := [_]) (Or.inl ⟨_, rfl, rfl⟩) ?_
  refine M.Bind.ok (t := [_]) (Or.inl ⟨_, rfl, rfl⟩) ?_
  refine M.Bind.ok (t := [_]) (a := ()) ?_ ?_
  · exact M.Catch.caught (t := [_]) (u := []) (M.Bind.raised (Or.inr (Or.inl ⟨rfl, rfl⟩)))
      (by rw [if_pos rfl]; exact ⟨rfl, Or.inl rfl⟩)
  · unfold Act.orRaise
    rw [M.pure_then, if_neg (by simp)]
    unfold restoreValues Act.orRaise
    rw [M.pure_then]
    exact M.Bind.raised (M.Bind.raised (Or.inr (Or.inl ⟨rfl, rfl⟩)))

/-- With the report of another controller the tool fails, but not with the error meant for it: the
text of that error uses an entry that reports do not have. -/
theorem C90_calibration_message_refuted (serialOf : Line → Line) (r : Report) (f s : Line)
    (hs : r.serial = some s) (hne : serialOf f ≠ s) :
    doRestoreCalibration serialOf r [.data (txt "firmware") (some f), .data (txt "git") (some []),
      .sent (txt "conf enumerate uuid") (.ok [])] (.raised .key) := by
  unfold doRestoreCalibration
  refine M.Bind.ok (t := [_]) (Or.inl ⟨_, rfl, rfl⟩) ?_
  refine M.Bind.ok (t := [_]) (Or.inl ⟨_, rfl, rfl⟩) ?_
  refine M.Bind.ok (t := [_]) (u := []) (a := ()) ?_ ?_
  · exact M.Catch.ok (M.Bind.ok (t := [_]) (u := []) (Or.inl ⟨_, rfl, rfl⟩) ⟨rfl, Or.inl rfl⟩)
  · rw [hs]
    unfold Act.orRaise
    rw [M.pure_then, if_pos hne]
    exact ⟨rfl, rfl⟩

/-! ## Targets -/

theorem search_spec (is : List Nat) (t : List Bus) (r : Res Exn (List Nat)) (h : search is t r) :
    (∃ bs : List (Nat × Bool), bs.map Prod.fst <+: is ∧ t = bs.map (fun b => Bus.probe 0 b.1 b.2) ∧
      ∀ l, r = .ok l → bs.map Prod.fst = is ∧ l = (bs.filter Prod.snd).map Prod.fst) := by
  induction is generalizing t r with
  | nil =>
    obtain ⟨rfl, rfl⟩ := h
    refine ⟨[], by simp, rfl, fun l hl => ?_⟩
    cases hl
    exact ⟨rfl, rfl⟩
  | cons i is ih =>
    simp only [search] at h
    cases h with
    | raised h =>
      rcases h with ⟨b, rfl, hx⟩ | ⟨rfl, hx⟩
      · cases hx
      · exact ⟨[(i, false)], by simp, rfl, by simp⟩
    | ok h1 h2 =>
      rcases h1 with ⟨b, rfl, hx⟩ | ⟨rfl, hx⟩
      swap
      · cases hx
      cases hx
      rename_i b
      cases h2 with
      | raised h3 =>
        obtain ⟨bs, g1, rfl, -⟩ := ih _ _ h3
        exact ⟨(i, b) :: bs, by simpa using g1, rfl, by simp⟩
      | ok h3 h4 =>
        obtain ⟨bs, g1, rfl, g3⟩ := ih _ _ h3
        obtain ⟨rfl, rfl⟩ := h4
        refine ⟨(i, b) :: bs, by simpa using g1, by simp, fun l hl => ?_⟩
        obtain ⟨g4, g5⟩ := g3 _ rfl
        cases hl
        refine ⟨by simp [g4], ?_⟩
        cases b <;> simp [g5]

/-- The search asks the identifiers from 1 on, each once and in order, and finds exactly those that
answer. -/
theorem C90_search (t : List Bus) (r : Res Exn (List Nat)) (h : findTargets [] t r) :
    ∃ bs : List (Nat × Bool), bs.map Prod.fst <+: (List.range 126).map (· + 1) ∧
      t = bs.map (fun b => Bus.probe 0 b.1 b.2) ∧
      ∀ l, r = .ok l → bs.map Prod.fst = (List.range 126).map (· + 1) ∧
        ∀ x, x ∈ l ↔ (x, true) ∈ bs := by
  unfold findTargets at h
  simp only [ne_eq, not_true_eq_false, if_false] at h
  obtain ⟨bs, g1, g2, g3⟩ := search_spec _ _ _ h
  refine ⟨bs, g1, g2, fun l hl => ⟨(g3 l hl).1, fun x => ?_⟩⟩
  rw [(g3 l hl).2]
  simp

/-- Whatever controllers there are, the search can find them. -/
theorem C90_search_finds (f : Nat → Bool) : findTargets []
    (((List.range 126).map (· + 1)).map fun i => Bus.probe 0 i (f i))
    (.ok (((List.range 126).map (· + 1)).filter f)) := by
  unfold findTargets
  simp only [ne_eq, not_true_eq_false, if_false]
  generalize (List.range 126).map (· + 1) = is
  induction is with
  | nil => exact ⟨rfl, rfl⟩
  | cons i is ih =>
    simp only [search]
    refine M.Bind.ok (t := [_]) (Or.inl ⟨f i, rfl, rfl⟩) ?_
    have h2 := M.Bind.ok ih (f := fun rest => Pure.pure (if f i then i :: rest else rest))
      (u := []) ⟨rfl, rfl⟩
    rw [List.append_nil] at h2
    rw [List.filter_cons]
    exact h2

/-- The identifier 127 is valid but is never asked. -/
theorem C90_search_refuted (t : List Bus) (r : Res Exn (List Nat)) (h : findTargets [] t r)
    (p : Nat) (b : Bool) : Bus.probe p 127 b ∉ t := by
  obtain ⟨bs, g1, g2, -⟩ := C90_search t r h
  rw [g2]
  intro hx
  obtain ⟨y, hy, he⟩ := List.mem_map.mp hx
  injection he with h1 h2 h3
  have := g1.subset (List.mem_map.mpr ⟨y, hy, h2⟩)
  simp at this

/-- The search never uses the prefix of the options, with which the commands are sent later. -/
theorem C90_prefix_refuted (t : List Bus) (r : Res Exn (List Nat)) (h : findTargets [] t r)
    (p i : Nat) (b : Bool) (hp : p ≠ 0) : Bus.probe p i b ∉ t := by
  obtain ⟨bs, g1, g2, -⟩ := C90_search t r h
  rw [g2]
  intro hx
  obtain ⟨y, hy, he⟩ := List.mem_map.mp hx
  injection he with h1 h2 h3
  exact hp h1.symm

/-- The only exchange of `--stop` with a target. -/
theorem stop_action (a : Args) (o : Others) (h1 : a.stop = true) (h2 : a.console = false)
    (h3 : a.telStop = false ∨ a.noTelStop = true) (t : List Ev) (r : Res Exn Unit) (h : runAction a o t r) :
    (∃ x, t = [.sent (txt "d stop") x]) ∧
      (r = .ok () → ∃ x, t = [.sent (txt "d stop") (.ok x)]) := by
  have hs : telStops a = false := by
    unfold telStops defaultTelStop
    rcases h3 with h3 | h3 <;> simp [h1, h2, h3]
  unfold runAction at h
  rw [hs, h1, h2] at h
  simp only [Bool.false_eq_true, if_false, if_true] at h
  cases h with
  | raised h =>
    rcases h with ⟨x, rfl, hx⟩ | ⟨rfl, hx⟩ | ⟨rfl, hx⟩
    · cases hx
    · exact ⟨⟨_, rfl⟩, by simp⟩
    · exact ⟨⟨_, rfl⟩, by simp⟩
  | ok g1 g2 =>
    obtain ⟨rfl, rfl⟩ := g2
    rcases g1 with ⟨x, rfl, hx⟩ | ⟨rfl, hx⟩ | ⟨rfl, hx⟩
    · exact ⟨⟨_, rfl⟩, fun _ => ⟨x, rfl⟩⟩
    · cases hx
    · cases hx

/-- `--stop`: the targets are stopped in the order given, nothing else is sent; if the tool ends
without an error, every one has acknowledged. -/
theorem C90_stop (a : Args) (o : Nat → Others) (h1 : a.stop = true) (h2 : a.console = false)
    (h3 : a.telStop = false ∨ a.noTelStop = true) (given : List Nat) (hg : given ≠ []) (t : List Bus) (r : Res Exn Unit)
    (h : start a o given t r) :
    ∃ xs : List (Nat × Reply), xs.map Prod.fst <+: given ∧
      t = xs.map (fun x => Bus.on x.1 (.sent (txt "d stop") x.2)) ∧
      (r = .ok () → xs.map Prod.fst = given ∧ ∀ x ∈ xs, ∃ s, x.2 = .ok s) := by
  unfold start findTargets at h
  rw [if_pos hg, M.pure_then] at h
  clear hg
  induction given generalizing t r with
  | nil =>
    obtain ⟨rfl, rfl⟩ := h
    exact ⟨[], by simp, rfl, fun _ => ⟨rfl, by simp⟩⟩
  | cons x xs ih =>
    simp only [actOn] at h
    cases h with
    | raised h =>
      obtain ⟨u, hu, rfl⟩ := h
      obtain ⟨⟨y, rfl⟩, -⟩ := stop_action a (o x) h1 h2 h3 _ _ hu
      exact ⟨[(x, y)], by simp, rfl, by simp⟩
    | ok g1 g2 =>
      obtain ⟨u, hu, rfl⟩ := g1
      obtain ⟨-, hy⟩ := stop_action a (o x) h1 h2 h3 _ _ hu
      obtain ⟨y, rfl⟩ := hy rfl
      obtain ⟨zs, k1, rfl, k3⟩ := ih _ _ g2
      refine ⟨(x, .ok y) :: zs, by simpa using k1, rfl, fun hr => ?_⟩
      obtain ⟨k4, k5⟩ := k3 hr
      refine ⟨by simp [k4], fun z hz => ?_⟩
      rcases List.mem_cons.mp hz with rfl | hz
      · exact ⟨y, rfl⟩
      · exact k5 z hz

/-- If the first of two targets does not answer, the second one is not stopped. -/
theorem C90_stop_refuted (o : Nat → Others) : ∃ t,
    start { stop := true } o [1, 2] t (.raised .other) ∧ ∀ e, Bus.on 2 e ∉ t := by
  refine ⟨[.on 1 (.sent (txt "d stop") .lost)], ?_, by simp⟩
  unfold start findTargets
  rw [if_pos (by simp), M.pure_then]
  refine M.Bind.raised ⟨[.sent (txt "d stop") .lost], ?_, rfl⟩
  unfold runAction
  have hs : telStops { stop := true } = false := by decide
  rw [hs]
  simp only [Bool.false_eq_true, if_false, if_true]
  exact M.Bind.raised (Or.inr (Or.inr ⟨rfl, rfl⟩))

/-- `--set-offset 0` does not set the offset: the tool says that no action was given. -/
theorem C90_offset_zero_refuted (o : Others) (v : Line) (t : List Ev) (r : Res Exn Unit)
    (h : runAction { setOffset := some (0, v) } o t r) :
    (∀ e ∈ t, e = .wrote (txt "tel stop") ∨ e = .listened) ∧ ∃ e, r = .raised e := by
  unfold runAction at h
  have hs : telStops { setOffset := some (0, v) } = true := by rfl
  rw [hs] at h
  simp only [if_true, Bool.false_eq_true, if_false, Option.filter] at h
  simp only [ne_eq, not_true_eq_false, decide_false, Bool.false_eq_true, if_false] at h
  cases h with
  | raised h =>
    obtain ⟨rfl, -⟩ := h
    exact ⟨by simp, _, rfl⟩
  | ok h1 h2 =>
    obtain ⟨rfl, -⟩ := h1
    cases h2 with
    | raised h => obtain ⟨rfl, h⟩ := h; exact ⟨by simp, _, rfl⟩
    | ok h3 h4 =>
      obtain ⟨rfl, -⟩ := h3
      obtain ⟨rfl, rfl⟩ := h4
      exact ⟨by simp, _, rfl⟩

end Verif.Session.Act
