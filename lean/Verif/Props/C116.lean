import Verif.Model.Observe
import Verif.Spec.Log
import Verif.Props.C109
/-!
# C116, C117: the log of measurements
-/

namespace Attimo

open Spec

theorem writeAt_end (c s : List Char) : writeAt c c.length s = c ++ s := by
  unfold writeAt
  simp

/-- the log written by the commands, with the first line -/
def logText (cmds : List LogCmd) : List Char :=
  logHeader ++ cmds.flatMap fun c => match c with
    | .append e => e.pieces.flatten
    | _ => []

/-- the texts handed over by the steps -/
def putText (steps : List LogStep) : List Char := steps.flatMap fun s => match s with
  | .put s => s
  | _ => []

/-- the observer writes at the end of its file, which together with the buffer is `text` -/
structure LogInv (files : Nat → List Char) (o : Observer) (text : List Char) : Prop where
  pos : o.fd.pos = (files o.fd.file).length
  all : files o.fd.file ++ o.buf = text
  short : o.buf.length ≤ bufCap

theorem obsFlush_inv {files : Nat → List Char} {o : Observer} {text : List Char} (h : LogInv files o text) :
    LogInv (obsFlush files o).1 (obsFlush files o).2 text ∧ (obsFlush files o).2.fd.file = o.fd.file ∧ (obsFlush files o).1 o.fd.file = text ∧
      (obsFlush files o).2.buf = [] ∧ ∀ q, q ≠ o.fd.file → (obsFlush files o).1 q = files q := by
  have e : (obsFlush files o).1 o.fd.file = text := by
    show (if o.fd.file = o.fd.file then writeAt (files o.fd.file) o.fd.pos o.buf else _) = _
    rw [if_pos rfl, h.pos, writeAt_end, h.all]
  refine ⟨⟨?_, ?_, Nat.zero_le _⟩, rfl, e, rfl, fun q hq => if_neg hq⟩
  · show o.fd.pos + o.buf.length = ((obsFlush files o).1 o.fd.file).length
    rw [e, ← h.all, List.length_append, h.pos]
  · show (obsFlush files o).1 o.fd.file ++ [] = text
    rw [e, List.append_nil]

theorem obsWrite_inv {files : Nat → List Char} {o : Observer} {text : List Char} (h : LogInv files o text) (s : List Char) :
    LogInv (obsWrite files o s).1 (obsWrite files o s).2 (text ++ s) ∧ (obsWrite files o s).2.fd.file = o.fd.file ∧
      ∀ q, q ≠ o.fd.file → (obsWrite files o s).1 q = files q := by
  unfold obsWrite
  by_cases h1 : s.length < bufCap - o.buf.length
  · rw [if_pos h1]
    refine ⟨⟨h.pos, ?_, ?_⟩, rfl, fun _ _ => rfl⟩
    · rw [← h.all, List.append_assoc]
    · show (o.buf ++ s).length ≤ bufCap
      rw [List.length_append]; omega
  · rw [if_neg h1]
    obtain ⟨g1, g2, g3, g4, g5⟩ := obsFlush_inv h
    by_cases h2 : s.length > bufCap - o.buf.length
    · rw [if_pos h2]
      generalize obsFlush files o = r at *
      obtain ⟨files', o'⟩ := r
      dsimp only at *
      by_cases h3 : s.length ≥ bufCap
      · rw [if_pos h3]
        have e : (fdWrite files' o'.fd s).1 o'.fd.file = text ++ s := by
          show (if o'.fd.file = o'.fd.file then writeAt (files' o'.fd.file) o'.fd.pos s else _) = _
          rw [if_pos rfl, g1.pos, writeAt_end, g2, g3]
        refine ⟨⟨?_, ?_, ?_⟩, g2, fun q hq => ?_⟩
        · show o'.fd.pos + s.length = ((fdWrite files' o'.fd s).1 o'.fd.file).length
          rw [e, g1.pos, g2, g3, List.length_append]
        · show (fdWrite files' o'.fd s).1 o'.fd.file ++ o'.buf = _
          rw [e, g4, List.append_nil]
        · show o'.buf.length ≤ _
          rw [g4]; exact Nat.zero_le _
        · show (if q = o'.fd.file then _ else files' q) = _
          rw [if_neg (by rw [g2]; exact hq), g5 q hq]
      · rw [if_neg h3]
        refine ⟨⟨g1.pos, ?_, ?_⟩, g2, g5⟩
        · show files' o'.fd.file ++ (o'.buf ++ s) = _
          rw [← g1.all, List.append_assoc]
        · show (o'.buf ++ s).length ≤ _
          rw [g4, List.nil_append]; omega
    · rw [if_neg h2]
      dsimp only
      by_cases h3 : s.length ≥ bufCap
      · rw [if_pos h3]
        have hb : o.buf = [] := by
          have : bufCap = 8192 := rfl
          exact List.length_eq_zero_iff.1 (by omega)
        have ht : files o.fd.file = text := by rw [← h.all, hb, List.append_nil]
        have e : (fdWrite files o.fd s).1 o.fd.file = text ++ s := by
          show (if o.fd.file = o.fd.file then writeAt (files o.fd.file) o.fd.pos s else _) = _
          rw [if_pos rfl, h.pos, writeAt_end, ht]
        refine ⟨⟨?_, ?_, h.short⟩, rfl, fun q hq => if_neg hq⟩
        · show o.fd.pos + s.length = ((fdWrite files o.fd s).1 o.fd.file).length
          rw [e, h.pos, ht, List.length_append]
        · show (fdWrite files o.fd s).1 o.fd.file ++ o.buf = _
          rw [e, hb, List.append_nil]
      · rw [if_neg h3]
        refine ⟨⟨h.pos, ?_, ?_⟩, rfl, fun _ _ => rfl⟩
        · rw [← h.all, List.append_assoc]
        · show (o.buf ++ s).length ≤ _
          have := h.short
          rw [List.length_append]; omega

theorem obsNew_inv (files : Nat → List Char) (path : Nat) : LogInv (obsNew files path).1 (obsNew files path).2 logHeader ∧
    (obsNew files path).2.fd.file = path ∧ ∀ q, q ≠ path → (obsNew files path).1 q = files q := by
  have h : LogInv (fun q => if q = path then [] else files q) ⟨⟨path, 0⟩, []⟩ [] :=
    ⟨by show 0 = (if path = path then [] else files path).length; rw [if_pos rfl]; rfl,
      by show (if path = path then [] else files path) ++ [] = []; rw [if_pos rfl]; rfl, Nat.zero_le _⟩
  obtain ⟨h1, h2, h3⟩ := obsWrite_inv h logHeader
  exact ⟨h1, h2, fun q hq => by rw [obsNew, h3 q hq]; exact if_neg hq⟩

/-- a step other than `reset` -/
def LogStep.Plain : LogStep → Prop
  | .put _ | .flush => True
  | .create _ | .replace => False

theorem step_inv {w : LogWorld} {text : List Char} (h : LogInv w.files w.obs text) (s : LogStep) (hs : s.Plain) :
    LogInv (w.step s).files (w.step s).obs (text ++ putText [s]) ∧ (w.step s).obs.fd.file = w.obs.fd.file ∧ (w.step s).fresh = w.fresh ∧
      (∀ q, q ≠ w.obs.fd.file → (w.step s).files q = w.files q) := by
  cases s with
  | put s =>
    obtain ⟨h1, h2, h3⟩ := obsWrite_inv h s
    refine ⟨?_, h2, rfl, h3⟩
    have : putText [.put s] = s := by simp [putText]
    rw [this]
    exact h1
  | flush =>
    obtain ⟨h1, h2, _, _, h3⟩ := obsFlush_inv h
    refine ⟨?_, h2, rfl, h3⟩
    have : putText [.flush] = [] := by simp [putText]
    rw [this, List.append_nil]
    exact h1
  | create _ => exact hs.elim
  | replace => exact hs.elim

theorem steps_inv {w : LogWorld} {text : List Char} (h : LogInv w.files w.obs text) (ss : List LogStep) (hs : ∀ s ∈ ss, s.Plain) :
    LogInv (ss.foldl LogWorld.step w).files (ss.foldl LogWorld.step w).obs (text ++ putText ss) ∧
      (ss.foldl LogWorld.step w).obs.fd.file = w.obs.fd.file ∧ (ss.foldl LogWorld.step w).fresh = w.fresh ∧
      (∀ q, q ≠ w.obs.fd.file → (ss.foldl LogWorld.step w).files q = w.files q) := by
  induction ss generalizing w text with
  | nil => exact ⟨by simpa [putText] using h, rfl, rfl, fun _ _ => rfl⟩
  | cons s ss ih =>
    obtain ⟨h1, h2, h3, h4⟩ := step_inv h s (hs s (by simp))
    obtain ⟨g1, g2, g3, g4⟩ := ih h1 (fun s hs' => hs s (by simp [hs']))
    refine ⟨?_, g2.trans h2, g3.trans h3, fun q hq => (g4 q (by rw [h2]; exact hq)).trans (h4 q hq)⟩
    have e : putText (s :: ss) = putText [s] ++ putText ss := by simp [putText]
    rw [e, ← List.append_assoc]
    exact g1

/-- a command other than `reset` -/
def LogCmd.Plain : LogCmd → Prop
  | .append _ | .flush => True
  | .reset _ => False

theorem plain_steps {cmds : List LogCmd} (h : ∀ c ∈ cmds, c.Plain) : ∀ s ∈ cmds.flatMap LogCmd.steps, s.Plain := by
  intro s hs
  obtain ⟨c, hc, hs⟩ := List.mem_flatMap.1 hs
  cases c with
  | append e =>
    obtain ⟨p, _, rfl⟩ := List.mem_map.1 hs
    trivial
  | flush => simp [LogCmd.steps] at hs; subst hs; trivial
  | reset _ => exact (h _ hc).elim

theorem putText_puts (ps : List (List Char)) : putText (ps.map .put) = ps.flatten := by
  induction ps with
  | nil => rfl
  | cons p ps ih =>
    show p ++ putText (ps.map .put) = p ++ ps.flatten
    rw [ih]

theorem putText_steps {cmds : List LogCmd} : logHeader ++ putText (cmds.flatMap LogCmd.steps) = logText cmds := by
  unfold logText
  congr 1
  induction cmds with
  | nil => rfl
  | cons c cmds ih =>
    have e : putText ((c :: cmds).flatMap LogCmd.steps) = putText c.steps ++ putText (cmds.flatMap LogCmd.steps) := by simp [putText]
    rw [e, ih, List.flatMap_cons]
    congr 1
    cases c with
    | append e => exact putText_puts _
    | flush => rfl
    | reset _ => rfl

/-! ## C116 -/

/-- C116: while there is no reset, if the process is killed at any moment (after any number of steps, or during a write of the operating system: the file is then the beginning of what
it would have become), the file of the log is a prefix of the first line and the lines appended in the whole run; no other file is touched. -/
theorem C116_crash (files : Nat → List Char) (path : Nat) (cmds : List LogCmd) (hc : ∀ c ∈ cmds, c.Plain) (n : Nat) (content : List Char)
    (h2 : content <+: (logRun files path ((cmds.flatMap LogCmd.steps).take (n + 1))).files path) :
    content <+: logText cmds ∧ ∀ q, q ≠ path → (logRun files path ((cmds.flatMap LogCmd.steps).take n)).files q = files q := by
  obtain ⟨g1, g2, g3⟩ := obsNew_inv files path
  have key := fun m => steps_inv (w := ⟨(obsNew files path).1, (obsNew files path).2, none⟩) g1 ((cmds.flatMap LogCmd.steps).take m)
    (fun s hs => plain_steps hc s (List.mem_of_mem_take hs))
  constructor
  · obtain ⟨k1, k2, _, _⟩ := key (n + 1)
    have e1 : (logRun files path ((cmds.flatMap LogCmd.steps).take (n + 1))).files path <+:
        logHeader ++ putText ((cmds.flatMap LogCmd.steps).take (n + 1)) := by
      rw [← k1.all, k2]
      exact ⟨_, by rw [g2]; rfl⟩
    have e2 : logHeader ++ putText ((cmds.flatMap LogCmd.steps).take (n + 1)) <+: logText cmds := by
      rw [← putText_steps]
      refine (List.prefix_append_right_inj _).2 ⟨putText ((cmds.flatMap LogCmd.steps).drop (n + 1)), ?_⟩
      unfold putText
      rw [← List.flatMap_append, List.take_append_drop]
    exact h2.trans (e1.trans e2)
  · intro q hq
    obtain ⟨_, _, _, k4⟩ := key n
    exact (k4 q (by rw [g2]; exact hq)).trans (g3 q hq)

/-- C116: of a run that ends without a flush, at most 8192 characters are lost. -/
theorem C116_loss (files : Nat → List Char) (path : Nat) (cmds : List LogCmd) (hc : ∀ c ∈ cmds, c.Plain) :
    (logRun files path (cmds.flatMap LogCmd.steps)).files path <+: logText cmds ∧
      (logText cmds).length ≤ ((logRun files path (cmds.flatMap LogCmd.steps)).files path).length + 8192 := by
  obtain ⟨g1, g2, _⟩ := obsNew_inv files path
  obtain ⟨k1, k2, _, _⟩ := steps_inv (w := ⟨(obsNew files path).1, (obsNew files path).2, none⟩) g1 (cmds.flatMap LogCmd.steps) (plain_steps hc)
  have e := k1.all
  rw [k2, putText_steps] at e
  rw [← e]
  have hs := k1.short
  refine ⟨⟨_, by rw [g2]; rfl⟩, ?_⟩
  rw [List.length_append]
  have : (((cmds.flatMap LogCmd.steps).foldl LogWorld.step ⟨(obsNew files path).1, (obsNew files path).2, none⟩).files (obsNew files path).2.fd.file) =
    (logRun files path (cmds.flatMap LogCmd.steps)).files path := by rw [g2]; rfl
  rw [this]
  unfold bufCap at hs
  exact Nat.add_le_add_left hs _

/-- the fields of an entry -/
def LogEntry.fields (e : LogEntry) : List (List Char) := [e.elapsed, showNat e.repetition, showNat e.pfx, e.name, e.value]

/-- the logEntries appended by the commands -/
def logEntries (cmds : List LogCmd) : List LogEntry := cmds.flatMap fun c => match c with
  | .append e => [e]
  | _ => []

theorem cut_fields (fs : List (List Char)) (f : List Char) (h : ∀ g ∈ f :: fs, ',' ∉ g) : cut ',' (f ++ fs.flatMap fun g => ',' :: g) = f :: fs := by
  induction fs generalizing f with
  | nil => simp only [List.flatMap_nil, List.append_nil]; exact cut_none ',' f (h f (by simp))
  | cons g fs ih =>
    rw [List.flatMap_cons, List.cons_append, cut_append ',' f _ (h f (by simp)), ih g (fun g' hg => h g' (by simp at hg ⊢; tauto))]

/-- no field of the entry contains a comma or a line feed -/
def LogEntry.Plain (e : LogEntry) : Prop := ∀ f ∈ [e.elapsed, e.name, e.value], ',' ∉ f ∧ '\n' ∉ f

theorem readLog_text (cmds : List LogCmd) (h : ∀ e ∈ logEntries cmds, e.Plain) : readLog (logText cmds) = (logEntries cmds).map LogEntry.fields := by
  have hline : ∀ e : LogEntry, e.pieces.flatten = (e.elapsed ++ [showNat e.repetition, showNat e.pfx, e.name, e.value].flatMap fun g => ',' :: g) ++ ['\n'] := by
    intro e; simp [LogEntry.pieces]
  have key : cut '\n' (logText cmds) = "elapsed_s,repetition,prefix,name,value".toList ::
      (logEntries cmds).map (fun e => e.elapsed ++ [showNat e.repetition, showNat e.pfx, e.name, e.value].flatMap fun g => ',' :: g) ++ [[]] := by
    have e : logHeader = "elapsed_s,repetition,prefix,name,value".toList ++ ['\n'] := rfl
    unfold logText
    rw [e, List.append_assoc, List.singleton_append, cut_append _ _ _ (by decide)]
    rw [List.cons_append]
    congr 1
    induction cmds with
    | nil => rfl
    | cons c cmds ih =>
      have ih := ih (fun e he => h e (by unfold logEntries at he ⊢; rw [List.flatMap_cons]; exact List.mem_append_right _ he))
      rw [List.flatMap_cons]
      cases c with
      | append e =>
        have he := h e (by simp [logEntries])
        have e1 : logEntries (.append e :: cmds) = e :: logEntries cmds := rfl
        dsimp only
        rw [hline, List.append_assoc, List.singleton_append, cut_append, ih, e1]
        · rfl
        · simp only [List.flatMap_cons, List.flatMap_nil, List.append_nil, List.mem_append, List.mem_cons, not_or]
          have hr := (showNat_plain e.repetition).2.1
          have hp := (showNat_plain e.pfx).2.1
          exact ⟨(he _ (by simp)).2, ⟨⟨by decide, hr⟩, ⟨by decide, hp⟩, ⟨by decide, (he _ (by simp)).2⟩, by decide, (he _ (by simp)).2⟩⟩
      | flush => exact ih
      | reset _ => exact ih
  unfold readLog
  rw [key, List.dropLast_concat, List.drop_one, List.tail_cons, List.map_map]
  refine List.map_congr_left fun e he => ?_
  show cut ',' _ = _
  rw [cut_fields]
  · rfl
  · intro g hg
    have := h e he
    simp only [List.mem_cons, List.not_mem_nil, or_false] at hg
    rcases hg with rfl | rfl | rfl | rfl | rfl
    · exact (this _ (by simp)).1
    · exact (showNat_plain _).1
    · exact (showNat_plain _).1
    · exact (this _ (by simp)).1
    · exact (this _ (by simp)).1

/-- C116: after a flush the log is complete: it is the first line and the lines appended since it was created, in order, and reading it gives back the fields of
the entries (if they contain no commas and line feeds). -/
theorem C116_flush (files : Nat → List Char) (path : Nat) (cmds : List LogCmd) (hc : ∀ c ∈ cmds, c.Plain) :
    (logRun files path ((cmds ++ [LogCmd.flush]).flatMap LogCmd.steps)).files path = logText cmds ∧
      ((∀ e ∈ logEntries cmds, e.Plain) → readLog (logText cmds) = (logEntries cmds).map LogEntry.fields) := by
  refine ⟨?_, readLog_text cmds⟩
  obtain ⟨g1, g2, _⟩ := obsNew_inv files path
  obtain ⟨k1, k2, _, _⟩ := steps_inv (w := ⟨(obsNew files path).1, (obsNew files path).2, none⟩) g1 (cmds.flatMap LogCmd.steps) (plain_steps hc)
  obtain ⟨_, _, f, _, _⟩ := obsFlush_inv k1
  rw [putText_steps, k2] at f
  have e : (cmds ++ [LogCmd.flush]).flatMap LogCmd.steps = cmds.flatMap LogCmd.steps ++ [LogStep.flush] := by simp [LogCmd.steps]
  rw [e]
  unfold logRun
  dsimp only
  rw [List.foldl_append]
  show (obsFlush _ _).1 path = _
  rw [← f]
  congr 1

/-! ## C117 -/

/-- the commands of a run in which the log is sent from file to file -/
def segments : List (Nat × List LogCmd) → List LogCmd
  | [] => []
  | (path, cmds) :: rest => .reset path :: cmds ++ segments rest

theorem reset_inv {w : LogWorld} {text : List Char} (h : LogInv w.files w.obs text) (path : Nat) (hp : path ≠ w.obs.fd.file) :
    LogInv ((LogCmd.reset path).steps.foldl LogWorld.step w).files ((LogCmd.reset path).steps.foldl LogWorld.step w).obs logHeader ∧
      ((LogCmd.reset path).steps.foldl LogWorld.step w).obs.fd.file = path ∧
      ((LogCmd.reset path).steps.foldl LogWorld.step w).files w.obs.fd.file = text ∧
      ∀ q, q ≠ path → q ≠ w.obs.fd.file → ((LogCmd.reset path).steps.foldl LogWorld.step w).files q = w.files q := by
  obtain ⟨g1, g2, g3⟩ := obsNew_inv w.files path
  have h' : LogInv (obsNew w.files path).1 w.obs text := by
    have e := g3 w.obs.fd.file (Ne.symm hp)
    exact ⟨by rw [e]; exact h.pos, by rw [e]; exact h.all, h.short⟩
  obtain ⟨_, _, f3, _, f5⟩ := obsFlush_inv h'
  have e : (LogCmd.reset path).steps.foldl LogWorld.step w = ⟨(obsFlush (obsNew w.files path).1 w.obs).1, (obsNew w.files path).2, none⟩ := rfl
  rw [e]
  refine ⟨?_, g2, f3, fun q hq hq' => (f5 q hq').trans (g3 q hq)⟩
  have e2 : (obsFlush (obsNew w.files path).1 w.obs).1 (obsNew w.files path).2.fd.file = (obsNew w.files path).1 (obsNew w.files path).2.fd.file := by
    rw [g2]; exact f5 path hp
  exact ⟨g1.pos.trans (congrArg List.length e2.symm), (congrArg (· ++ (obsNew w.files path).2.buf) e2).trans g1.all, g1.short⟩

theorem segments_run (segs : List (Nat × List LogCmd)) (hseg : ∀ s ∈ segs, ∀ c ∈ s.2, c.Plain) (w : LogWorld) (text : List Char)
    (h : LogInv w.files w.obs text) (hd : (w.obs.fd.file :: segs.map Prod.fst).Nodup) :
    (((segments segs).flatMap LogCmd.steps ++ [LogStep.flush]).foldl LogWorld.step w).files w.obs.fd.file = text ∧
    (∀ s ∈ segs, (((segments segs).flatMap LogCmd.steps ++ [LogStep.flush]).foldl LogWorld.step w).files s.1 = logText s.2) ∧
    ∀ q, q ∉ w.obs.fd.file :: segs.map Prod.fst → (((segments segs).flatMap LogCmd.steps ++ [LogStep.flush]).foldl LogWorld.step w).files q = w.files q := by
  induction segs generalizing w text with
  | nil =>
    obtain ⟨_, _, f, _, f2⟩ := obsFlush_inv h
    exact ⟨f, by simp, fun q hq => f2 q (by simpa using hq)⟩
  | cons s segs ih =>
    obtain ⟨path, cmds⟩ := s
    have hp : path ≠ w.obs.fd.file := by
      intro e; simp [e] at hd
    obtain ⟨r1, r2, r3, r4⟩ := reset_inv h path hp
    obtain ⟨k1, k2, _, k4⟩ := steps_inv r1 (cmds.flatMap LogCmd.steps) (plain_steps (hseg (path, cmds) (by simp)))
    rw [putText_steps] at k1
    have e : (segments ((path, cmds) :: segs)).flatMap LogCmd.steps ++ [LogStep.flush] =
        (LogCmd.reset path).steps ++ (cmds.flatMap LogCmd.steps ++ ((segments segs).flatMap LogCmd.steps ++ [LogStep.flush])) := by
      show ((.reset path :: cmds) ++ segments segs).flatMap LogCmd.steps ++ _ = _
      rw [List.flatMap_append, List.flatMap_cons, List.append_assoc, List.append_assoc]
    rw [e, List.foldl_append, List.foldl_append]
    rw [r2] at k2 k4
    have hd2 := List.nodup_cons.1 hd
    obtain ⟨i1, i2, i3⟩ := ih (fun s hs => hseg s (by simp [hs])) _ _ k1 (by rw [k2]; exact hd2.2)
    rw [k2] at i1 i3
    refine ⟨?_, ?_, fun q hq => ?_⟩
    · rw [i3 _ hd2.1, k4 _ (Ne.symm hp), r3]
    · intro s hs
      rcases List.mem_cons.1 hs with rfl | hs
      · exact i1
      · exact i2 s hs
    · simp only [List.map_cons, List.mem_cons, not_or] at hq
      rw [i3 q (by simp only [List.mem_cons, not_or]; exact ⟨hq.2.1, hq.2.2⟩), k4 q hq.2.1, r4 q hq.2.1 hq.1]

/-- C117 (missing: the same file twice, see `C117_false`): if the log is sent from file to file, never to a file it has been sent to before, then after a flush every
one of the files is complete: it holds the first line and the lines appended while the log was sent to it; no other file is touched. -/
theorem C117_reset_partial (files : Nat → List Char) (path : Nat) (cmds : List LogCmd) (segs : List (Nat × List LogCmd)) (hc : ∀ c ∈ cmds, c.Plain)
    (hseg : ∀ s ∈ segs, ∀ c ∈ s.2, c.Plain) (hd : (path :: segs.map Prod.fst).Nodup) :
    (∀ s ∈ (path, cmds) :: segs, (logRun files path ((cmds ++ segments segs ++ [LogCmd.flush]).flatMap LogCmd.steps)).files s.1 = logText s.2) ∧
      ∀ q, q ∉ path :: segs.map Prod.fst → (logRun files path ((cmds ++ segments segs ++ [LogCmd.flush]).flatMap LogCmd.steps)).files q = files q := by
  obtain ⟨g1, g2, g3⟩ := obsNew_inv files path
  obtain ⟨k1, k2, _, k4⟩ := steps_inv (w := ⟨(obsNew files path).1, (obsNew files path).2, none⟩) g1 (cmds.flatMap LogCmd.steps) (plain_steps hc)
  rw [putText_steps] at k1
  have k2 := k2.trans g2
  have e : (cmds ++ segments segs ++ [LogCmd.flush]).flatMap LogCmd.steps =
      cmds.flatMap LogCmd.steps ++ ((segments segs).flatMap LogCmd.steps ++ [LogStep.flush]) := by simp [LogCmd.steps]
  obtain ⟨i1, i2, i3⟩ := segments_run segs hseg _ _ k1 (by rw [k2]; exact hd)
  rw [k2] at i1 i3
  rw [e]
  unfold logRun
  dsimp only
  rw [List.foldl_append]
  refine ⟨?_, fun q hq => ?_⟩
  · intro s hs
    rcases List.mem_cons.1 hs with rfl | hs
    · exact i1
    · exact i2 s hs
  · rw [i3 q hq]
    simp only [List.mem_cons, not_or] at hq
    exact (k4 q (by rw [g2]; exact hq.1)).trans (g3 q hq.1)

/-- an entry -/
def exLogEntry (name : String) : LogEntry := ⟨"0.25".toList, 1, 8, name.toList, "7".toList⟩

/-- C117 is false of the code: if the log is sent again to the file it is sent to, the lines appended before come after the new ones. -/
theorem C117_false : ¬ ∀ (files : Nat → List Char) (path : Nat) (cmds cmds' : List LogCmd), (∀ c ∈ cmds, c.Plain) → (∀ c ∈ cmds', c.Plain) →
    (logRun files path ((cmds ++ [LogCmd.reset path] ++ cmds' ++ [LogCmd.flush]).flatMap LogCmd.steps)).files path = logText cmds' := by
  intro h
  have := h (fun _ => []) 0 [.append (exLogEntry "a")] [] (by simp [LogCmd.Plain]) (by simp)
  revert this
  decide +kernel

/-- C116 and C117 on two files -/
example : (logRun (fun _ => "old".toList) 0 (([.append (exLogEntry "a"), .reset 1, .append (exLogEntry "b"), .flush] : List LogCmd).flatMap LogCmd.steps)).files 0 =
    "elapsed_s,repetition,prefix,name,value\n0.25,1,8,a,7\n".toList := by
  have := (C117_reset_partial (fun _ => "old".toList) 0 [.append (exLogEntry "a")] [(1, [.append (exLogEntry "b")])] (by simp [LogCmd.Plain])
    (by simp [LogCmd.Plain]) (by simp)).1 (0, [.append (exLogEntry "a")]) (by simp)
  exact this

example : (∀ e ∈ logEntries [.append (exLogEntry "a"), .append (exLogEntry "b")], e.Plain) ∧
    readLog (logText [.append (exLogEntry "a"), .append (exLogEntry "b")]) =
      [["0.25".toList, ['1'], ['8'], ['a'], ['7']], ["0.25".toList, ['1'], ['8'], ['b'], ['7']]] := by
  constructor
  · intro e he
    simp only [logEntries, List.flatMap_cons, List.flatMap_nil, List.append_nil, List.mem_append, List.mem_singleton] at he
    unfold LogEntry.Plain
    rcases he with rfl | rfl <;> decide +kernel
  · decide +kernel

end Attimo
