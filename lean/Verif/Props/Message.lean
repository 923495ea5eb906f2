import Verif.Spec.Message
import Verif.Props.Job
/-!
C94: the message of `PipelineFailed` shows every failed item and what was captured of its output.
-/
namespace Pieshell.Job
open Pieshell.Io (Bytes decode)
open Pieshell.Cmd (joinWith)

theorem fdText_name (n : Nat) : FdName n (fdText n) := by
  unfold fdText
  split
  · next h => subst h; exact .stdin
  split
  · next h => subst h; exact .stdout
  split
  · next h => subst h; exact .stderr
  · exact .other (by omega)

theorem contents_eq (d : Dict Nat Str) (res : Str) :
    contents d res = res ++ (d.map (fun kv => fdText kv.1 ++ c!" content:\n" ++ kv.2 ++ c!"\n")).flatten := by
  induction d generalizing res with
  | nil => simp [contents]
  | cons kv d ih =>
    obtain ⟨fd, v⟩ := kv
    simp only [contents, ih, List.map_cons, List.flatten_cons, List.append_assoc]

theorem joinWith_eq (sep : Str) (l : List Str) : joinWith sep l = List.intercalate sep l := by
  induction l with
  | nil => rfl
  | cons a l ih =>
    cases l with
    | nil => simp [joinWith, List.intercalate]
    | cons b l => simp only [joinWith, ih]; simp [List.intercalate, List.intersperse]

theorem itemTexts_ok (T : Texts) (s : St) (p : Nat) (l : List Nat)
    (h : ∀ i ∈ l, ∃ it, itemAt s p i = some it ∧ (it.kind = .proc ∨ it.kind = .func)) :
    ∃ xs, itemTexts T s.pipes p l = .ok xs ∧
      Pointwise (fun i x => ∃ it, itemAt s p i = some it ∧ itemText (T.item p i) it = .ok x) l xs := by
  induction l with
  | nil => exact ⟨[], rfl, .nil⟩
  | cons i l ih =>
    obtain ⟨xs, h1, h2⟩ := ih (fun j hj => h j (List.mem_cons_of_mem _ hj))
    obtain ⟨it, h3, h4⟩ := h i List.mem_cons_self
    have : ∃ x, itemText (T.item p i) it = .ok x := by
      rcases h4 with h4 | h4 <;> simp only [itemText, h4] <;> exact ⟨_, rfl⟩
    obtain ⟨x, hx⟩ := this
    refine ⟨x :: xs, ?_, .cons ⟨it, h3, hx⟩ h2⟩
    simp only [itemAt] at h3
    simp only [itemTexts, h3, hx, h1]

/-- C94: for every history and every pipeline without `fg`, the message can be made; it starts with the kind of the failure and the pipeline, and has one part for each item
that failed, in the order of the pipeline, that starts with its text. -/
theorem C94_can_be_shown (T : Texts) (b : Bool) (as : List Act) (p : Nat) (hf : NoFg (run (init b) as) p) :
    ∃ (l : List Nat) (bs : List Str), FailedList (run (init b) as) p l ∧
      Pointwise (fun i x => T.item p i <+: x) l bs ∧
      message T failedText (run (init b) as) p = .ok ("Pipeline failed: ".toList ++ T.pipe p ++ ":\n\n".toList ++
        List.intercalate "\n\n================================\n\n".toList bs) := by
  obtain ⟨h1, h2⟩ := C48_failed_processes b as p
  obtain ⟨xs, h3, h4⟩ := itemTexts_ok T (run (init b) as) p (failedItems (run (init b) as).pipes p) (fun i hi => by
    obtain ⟨it, h5, -⟩ := (h2 i).1 hi
    exact ⟨it, h5, hf it (List.mem_of_getElem? h5)⟩)
  refine ⟨_, xs, ⟨h1, h2⟩, ?_, ?_⟩
  · clear h3
    revert h4; generalize failedItems (run (init b) as).pipes p = l; intro h4
    induction h4 with
    | nil => exact .nil
    | @cons a x _ _ h _ ih =>
      refine .cons ?_ ih
      obtain ⟨it, -, h5⟩ := h
      unfold itemText at h5
      split at h5
      · cases h5; rw [contents_eq, List.append_assoc]; exact List.prefix_append _ _
      · cases h5; exact List.prefix_refl _
      · cases h5
  · simp only [message, h3, joinWith_eq, failedText]
    rfl

/-- `false | f | true` in which `false` and `f` fail. -/
example : message ⟨fun _ => "p".toList, fun _ i => (toString i).toList⟩ failedText (run (init true) [.start [proc, func, proc], .finish 0 0 (.exited 1), .task 0 0,
    .finish 0 1 .raised, .task 0 1, .finish 0 2 (.exited 0), .task 0 2]) 0 = .ok
    "Pipeline failed: p:\n\n0\n\n\n================================\n\n1".toList := by
  rfl

example : NoFg (run (init true) [.start [proc, func, proc]]) 0 := by
  intro it hit
  have : itemsOf (run (init true) [.start [proc, func, proc]]).pipes 0 = [proc.item, func.item, proc.item] := by decide
  rw [this] at hit
  simp only [List.mem_cons, List.not_mem_nil, or_false] at hit
  rcases hit with rfl | rfl | rfl <;> simp [proc, func, Spec.item]

/-- C94: once the pipeline has ended and the loop is at rest, the message shows for every process that failed its command and all that was written to its captured
streams, and for every function that failed its name and traceback.  Missing: `fg`; what was captured of functions; messages that are made earlier. -/
theorem C94_message_partial (T : Texts) (b : Bool) (as : List Act) (p : Nat) (hp : p < (run (init b) as).pipes.length)
    (hq : Quiet (run (init b) as)) (ha : ¬ Alive (run (init b) as).pipes p) (hs : Smooth (run (init b) as) p) (hf : NoFg (run (init b) as) p) :
    ∃ (l : List Nat) (bs : List Str), FailedList (run (init b) as) p l ∧ Pointwise (Block T (run (init b) as) p) l bs ∧
      message T failedText (run (init b) as) p = .ok ("Pipeline failed: ".toList ++ T.pipe p ++ ":\n\n".toList ++
        List.intercalate "\n\n================================\n\n".toList bs) := by
  have hcap := C49_captured_partial b as p hp hq ha hs
  obtain ⟨h1, h2⟩ := C48_failed_processes b as p
  obtain ⟨xs, h3, h4⟩ := itemTexts_ok T (run (init b) as) p (failedItems (run (init b) as).pipes p) (fun i hi => by
    obtain ⟨it, h5, -⟩ := (h2 i).1 hi
    exact ⟨it, h5, hf it (List.mem_of_getElem? h5)⟩)
  refine ⟨_, xs, ⟨h1, h2⟩, ?_, ?_⟩
  · clear h3
    revert h4; generalize failedItems (run (init b) as).pipes p = l; intro h4
    induction h4 with
    | nil => exact .nil
    | @cons a x _ _ h _ ih =>
      refine .cons ?_ ih
      obtain ⟨it, h6, h5⟩ := h
      refine ⟨it, h6, ?_⟩
      unfold itemText at h5
      split at h5
      · next hk =>
        refine .inl ⟨hk, (it.strings.map (fun kv => fdText kv.1 ++ c!" content:\n" ++ textWritten (run (init b) as) kv.2 ++ c!"\n")), ?_, ?_⟩
        · generalize it.strings = d
          induction d with
          | nil => exact .nil
          | cons kv d ih => exact .cons ⟨_, fdText_name _, rfl⟩ ih
        · cases h5
          rw [contents_eq, (hcap it (List.mem_of_getElem? h6)).1, List.map_map]
          rfl
      · next hk => cases h5; exact .inr ⟨hk, rfl⟩
      · cases h5
  · simp only [message, h3, joinWith_eq, failedText]
    rfl

theorem infix_intercalate {x sep : Str} {l : List Str} {y : Str} (hy : y ∈ l) (h : x <:+: y) : x <:+: List.intercalate sep l := by
  rw [← joinWith_eq]
  induction l with
  | nil => cases hy
  | cons a l ih =>
    cases l with
    | nil =>
      simp only [List.mem_singleton] at hy
      subst hy; exact h
    | cons b l =>
      simp only [joinWith]
      rcases List.mem_cons.1 hy with rfl | hy
      · rw [List.append_assoc]; exact h.trans (List.prefix_append _ _).isInfix
      · exact (ih hy).trans (List.suffix_append _ _).isInfix

/-- C94: in the same situation, the text written to each captured stream of each process that failed is a part of the message, under the name of the stream. -/
theorem C94_contains_output_partial (T : Texts) (b : Bool) (as : List Act) (p i : Nat) (it : Item) (hp : p < (run (init b) as).pipes.length)
    (hq : Quiet (run (init b) as)) (ha : ¬ Alive (run (init b) as).pipes p) (hs : Smooth (run (init b) as) p) (hf : NoFg (run (init b) as) p)
    (hit : itemAt (run (init b) as) p i = some it) (hk : it.kind = .proc) (hb : ItemBroken (run (init b) as).pipes it) :
    ∃ m, message T failedText (run (init b) as) p = .ok m ∧ T.item p i <:+: m ∧
      ∀ kv ∈ it.strings, ∃ name, FdName kv.1 name ∧
        (name ++ " content:\n".toList ++ textWritten (run (init b) as) kv.2 ++ ['\n']) <:+: m := by
  obtain ⟨l, bs, ⟨-, h2⟩, h3, h4⟩ := C94_message_partial T b as p hp hq ha hs hf
  have hil : i ∈ l := (h2 i).2 ⟨it, hit, not_alive_items ha it (List.mem_of_getElem? hit), hb⟩
  have : ∃ y ∈ bs, Block T (run (init b) as) p i y := by
    clear h2 h4
    induction h3 with
    | nil => cases hil
    | @cons a y _ _ h _ ih =>
      rcases List.mem_cons.1 hil with rfl | hil
      · exact ⟨y, List.mem_cons_self, h⟩
      · obtain ⟨y, hy, h⟩ := ih hil
        exact ⟨y, List.mem_cons_of_mem _ hy, h⟩
  obtain ⟨y, hy, it', h5, h6⟩ := this
  rw [hit] at h5; cases h5
  rcases h6 with ⟨-, xs, h7, rfl⟩ | ⟨h7, -⟩
  · refine ⟨_, h4, ?_, fun kv hkv => ?_⟩
    · refine List.IsInfix.trans (infix_intercalate hy ?_) (List.suffix_append _ _).isInfix
      rw [List.append_assoc]; exact (List.prefix_append _ _).isInfix
    · have : ∃ x ∈ xs, Section (run (init b) as) kv x := by
        clear hy h4
        revert hkv h7
        generalize it.strings = d
        intro h7 hkv
        induction h7 with
        | nil => cases hkv
        | @cons a x _ _ h _ ih =>
          rcases List.mem_cons.1 hkv with rfl | hkv
          · exact ⟨x, List.mem_cons_self, h⟩
          · obtain ⟨x, hx, h⟩ := ih hkv
            exact ⟨x, List.mem_cons_of_mem _ hx, h⟩
      obtain ⟨x, hx, name, hn, rfl⟩ := this
      refine ⟨name, hn, List.IsInfix.trans (infix_intercalate hy ?_) (List.suffix_append _ _).isInfix⟩
      refine List.IsInfix.trans ?_ (List.suffix_append _ _).isInfix
      obtain ⟨u, v, huv⟩ := List.append_of_mem hx
      rw [huv, List.flatten_append, List.flatten_cons]
      exact (List.prefix_append _ _).isInfix.trans (List.suffix_append _ _).isInfix
  · rw [hk] at h7; cases h7

/-- Two processes that write to captured streams; the first one fails. -/
example : message ⟨fun _ => "p".toList, fun _ i => (toString i).toList⟩ failedText
    (run (init true) [.start [⟨.proc, [(1, "/tmp/a".toList), (2, "/tmp/b".toList)], []⟩, ⟨.proc, [(5, "/tmp/c".toList)], []⟩],
      .write 0 1 "/tmp/c".toList [104], .write 0 0 "/tmp/a".toList [105], .write 0 0 "/tmp/b".toList [106], .finish 0 0 (.exited 2), .task 0 0,
      .finish 0 1 (.exited 0), .task 0 1]) 0 = .ok "Pipeline failed: p:\n\n0\nstdout content:\ni\nstderr content:\nj\n".toList := by
  rfl

/-- The hypotheses are met by a process that writes two bytes to its captured standard error and fails. -/
def failing : List Act := [.start [⟨.proc, [(2, "/tmp/a".toList)], []⟩], .wait 0, .resume 0, .write 0 0 "/tmp/a".toList [104, 105],
  .finish 0 0 (.exited 2), .task 0 0, .resume 0]

example : Quiet (run (init true) failing) ∧ ¬ Alive (run (init true) failing).pipes 0 ∧ Smooth (run (init true) failing) 0 ∧
    NoFg (run (init true) failing) 0 ∧ Ended (run (init true) failing) 0 (.failed [0]) := by
  have hk : ∀ it ∈ itemsOf (run (init true) failing).pipes 0, it.kind = .proc := by decide +kernel
  refine ⟨quiet_of_idle (by decide +kernel), dead_of (by decide +kernel), ?_, fun it hit => .inl (hk it hit), ⟨_, rfl, rfl⟩⟩
  intro q hb
  cases hb with
  | fg hit h _ => rw [hk _ hit] at h; cases h
  | refl =>
    refine ⟨?_, ?_, ?_⟩
    · intro it hit path hp
      have : ∀ it ∈ itemsOf (run (init true) failing).pipes 0, it.strings = [(2, "/tmp/a".toList)] := by decide +kernel
      rw [this _ hit] at hp
      simp only [List.map_cons, List.map_nil, List.mem_singleton] at hp
      subst hp
      exact ⟨"hi".toList, by decide +kernel⟩
    · rintro (⟨P, i, it, h1, h2, h3, h4⟩ | ⟨w, W, r, h1, h2, -, -⟩)
      · cases h1; cases h2; cases h3; cases h4
      · match w, h1 with
        | 0, h1 => cases h1; cases h2
        | n + 1, h1 => cases h1
    · rintro v ⟨V, h1, h2⟩
      match v, h1 with
      | 0, h1 => cases h1; cases h2
      | n + 1, h1 => cases h1

/-- C94 is false for `fg` of a pipeline that has failed: `wait()` raises `PipelineFailed`, whose text cannot be made (`TypeError`). -/
theorem C94_refuted_fg : ∃ as, Ended (run (init true) as) 1 (.failed [0]) ∧ WaitsFor (run (init true) as) 1 1 ∧
    ∀ T, message T failedText (run (init true) as) 1 = .error .typeError :=
  ⟨[.start [proc], .finish 0 0 (.exited 1), .task 0 0, .fg, .wait 1, .resume 1], ⟨_, rfl, rfl⟩, ⟨_, rfl, rfl⟩, fun _ => rfl⟩

/-- C94 is false for functions: what was captured of a function that failed is not shown. -/
theorem C94_refuted_function : ∃ as, Ended (run (init true) as) 0 (.failed [0]) ∧ WaitsFor (run (init true) as) 0 0 ∧
    (itemsOf (run (init true) as).pipes 0).map Item.output = [[(1, "hi".toList)], []] ∧
    ∀ T, message T failedText (run (init true) as) 0 = .ok (failedText ++ ": ".toList ++ T.pipe 0 ++ ":\n\n".toList ++ T.item 0 0) :=
  ⟨[.start [⟨.func, [(1, "/tmp/a".toList)], []⟩, proc], .write 0 0 "/tmp/a".toList [104, 105], .finish 0 0 .raised, .task 0 0, .wait 0, .resume 0,
    .finish 0 1 (.exited 0), .task 0 1, .resume 0], ⟨_, rfl, rfl⟩, ⟨_, rfl, rfl⟩, by decide +kernel, fun _ => rfl⟩

/-- C94 is false for a message that is made as soon as `wait()` raises: the output of the process that failed may not have been read yet. -/
theorem C94_refuted_early : ∃ as, Ended (run (init true) as) 0 (.failed [0]) ∧ WaitsFor (run (init true) as) 0 0 ∧
    bytesOf (run (init true) as) "/tmp/a".toList = [104, 105] ∧
    (itemsOf (run (init true) as).pipes 0).map Item.strings = [[(2, "/tmp/a".toList)], []] ∧
    ∀ T, message T failedText (run (init true) as) 0 = .ok (failedText ++ ": ".toList ++ T.pipe 0 ++ ":\n\n".toList ++ T.item 0 0 ++ "\n".toList) :=
  ⟨[.start [⟨.proc, [(2, "/tmp/a".toList)], []⟩, proc], .wait 0, .resume 0, .write 0 0 "/tmp/a".toList [104, 105], .finish 0 0 (.exited 1), .task 0 0,
    .finish 0 1 (.exited 0), .resume 0], ⟨_, rfl, rfl⟩, ⟨_, rfl, rfl⟩, by decide +kernel, by decide +kernel, fun T => by
      simp [message]
      rfl⟩

end Pieshell.Job
