import Verif.Spec.Func
import Verif.Props.Writer

/-!
C43: what a python function sends.
-/
namespace Pieshell.Func
open Pieshell.Io

/-- The state of the writer of a function with result `r` after a schedule of the event loop. -/
abbrev W (r : Result) (cap : Nat) (as : List Writer.Act) : Writer.St := Writer.R [NL] (produced r) cap 0 as

theorem values_plain (vs : List Val) (h : ∀ v ∈ vs, v.plain = true) :
    Writer.values (vs.map convert) = vs.filterMap sentAs := by
  induction vs with
  | nil => rfl
  | cons v vs ih =>
    have ih' := ih (fun x hx => h x (by simp [hx]))
    have hv := h v (by simp)
    cases v with
    | none => rw [List.filterMap_cons]; exact ih'
    | bytes b => simpa [convert, Writer.values, sentAs] using ih'
    | str s => simpa [convert, Writer.values, sentAs] using ih'
    | coro w => cases hv
    | other t =>
      cases t with
      | none => cases hv
      | some t => simpa [convert, Writer.values, sentAs] using ih'

theorem values_items (vs : List Val) (h : ∀ v ∈ vs, v.plainItem = true) :
    Writer.values (vs.map (fun v => convert (awaitItem v))) = vs.filterMap sentAs := by
  have h1 : ∀ v ∈ vs.map awaitItem, v.plain = true := by
    intro v hv
    obtain ⟨u, hu, e⟩ := List.mem_map.1 hv
    have := h u hu
    subst e
    cases u <;> exact this
  have h2 := values_plain _ h1
  rw [List.map_map] at h2
  rw [show (fun v => convert (awaitItem v)) = convert ∘ awaitItem from rfl, h2]
  clear h1 h2 h
  induction vs with
  | nil => rfl
  | cons v vs ih =>
    rw [List.map_cons, List.filterMap_cons, List.filterMap_cons, ih]
    cases v <;> rfl

/-- C43, partial: for every result that is not a string, bytes object or a mere asynchronous iterable, and for every
schedule: when the function's writer is done without error, the pipe has received the items of the result, each
followed by a newline.  Missing: `C43_str_refuted`, `C43_bytes_refuted`, `C43_async_iterable_refuted`. -/
theorem C43_sent_partial (r : Result) (cap : Nat) (as : List Writer.Act) (hr : r.regular = true)
    (hd : (W r cap as).done = .ok) : (W r cap as).written = expectedOutput r := by
  obtain ⟨h, _⟩ := Writer.C39_complete _ _ _ _ _ hd
  rw [h]
  unfold expectedOutput
  congr 1
  cases r with
  | scalar v => exact values_items [v] (by simpa [Result.regular] using hr)
  | str s => cases hr
  | bytes b => cases hr
  | coroutine v => exact values_plain [v] (by simpa [Result.regular] using hr)
  | iterable items raises =>
    simp only [Result.regular, Bool.and_eq_true, Bool.not_eq_true', List.all_eq_true] at hr
    simp only [produced, ending, hr.1, Bool.false_eq_true, if_false, List.append_nil]
    exact values_items items hr.2
  | asyncIterator items raises =>
    simp only [Result.regular, Bool.and_eq_true, Bool.not_eq_true', List.all_eq_true] at hr
    simp only [produced, ending, hr.1, Bool.false_eq_true, if_false, List.append_nil]
    exact values_plain items hr.2
  | asyncIterable items => cases hr

/-- Regular results never make the iterator fail. -/
theorem C43_regular_no_failure (r : Result) (hr : r.regular = true) : Writer.Prod.fail ∉ produced r := by
  have key : ∀ v : Val, v.plain = true → convert v ≠ .fail := by
    intro v hv
    cases v with
    | other t => cases t with
      | none => cases hv
      | some t => simp [convert]
    | coro w => simp [convert]
    | _ => simp [convert]
  have key2 : ∀ v : Val, v.plainItem = true → convert (awaitItem v) ≠ .fail := by
    intro v hv
    cases v with
    | coro w => exact key w hv
    | other t => exact key _ hv
    | _ => simp [awaitItem, convert]
  cases r with
  | scalar v =>
    simp only [produced, List.mem_singleton]
    exact fun e => key2 v hr e.symm
  | str s => cases hr
  | bytes b => cases hr
  | coroutine v =>
    simp only [produced, List.mem_singleton]
    exact fun e => key v hr e.symm
  | iterable items raises =>
    simp only [Result.regular, Bool.and_eq_true, Bool.not_eq_true', List.all_eq_true] at hr
    simp only [produced, ending, hr.1, Bool.false_eq_true, if_false, List.append_nil, List.mem_map, not_exists, not_and]
    exact fun v hv e => key2 v (hr.2 v hv) e
  | asyncIterator items raises =>
    simp only [Result.regular, Bool.and_eq_true, Bool.not_eq_true', List.all_eq_true] at hr
    simp only [produced, ending, hr.1, Bool.false_eq_true, if_false, List.append_nil, List.mem_map, not_exists, not_and]
    exact fun v hv e => key v (hr.2 v hv) e
  | asyncIterable items => cases hr

example : (Result.iterable [.str ['a'], .none, .coro (.str ['b']), .other (some ['7'])] false).regular = true ∧
    expectedOutput (Result.iterable [.str ['a'], .none, .coro (.str ['b']), .other (some ['7'])] false) =
      [97, 10, 98, 10, 55, 10] ∧
    (W (Result.iterable [.str ['a'], .none] false) 65536
      [.poll, .run false, .poll, .run false, .run false, .poll, .run false, .run false, .poll, .run false]).done = .ok := by
  decide

/-- C43: a generator that raises after some items: these are sent, and the function never ends normally. -/
theorem C43_raises (items : List Val) (hp : ∀ v ∈ items, v.plainItem = true) (cap : Nat) (as : List Writer.Act) :
    (W (.iterable items true) cap as).done ≠ .ok ∧
    ((W (.iterable items true) cap as).done = .exc → (W (.iterable items true) cap as).readerGone = false →
      (W (.iterable items true) cap as).written = expectedOutput (.iterable items true)) := by
  constructor
  · intro hd
    exact (Writer.C39_complete _ _ _ _ _ hd).2 (by simp [produced, ending])
  · intro hd hr
    have h := Writer.C39_failed _ _ _ _ _ hd hr
    rw [h]
    unfold expectedOutput
    congr 1
    have hn := C43_regular_no_failure (.iterable items false) (by
      simp only [Result.regular, Bool.not_false, Bool.true_and, List.all_eq_true]; exact hp)
    have hu : ∀ ps : List Writer.Prod, Writer.Prod.fail ∉ ps → Writer.upToFail (ps ++ [.fail]) = ps ++ [.fail] := by
      intro ps
      induction ps with
      | nil => intro _; rfl
      | cons p ps ih =>
        intro hps
        simp only [List.mem_cons, not_or] at hps
        cases p with
        | fail => exact absurd rfl hps.1
        | item b => simp [Writer.upToFail, ih hps.2]
        | skip => simp [Writer.upToFail, ih hps.2]
    have e : produced (.iterable items true) = produced (.iterable items false) ++ [.fail] := by
      simp [produced, ending]
    rw [e, hu _ hn, Writer.values_append]
    simp only [Writer.values, List.append_nil, produced, ending, Bool.false_eq_true, if_false]
    exact values_items items hp

example : (W (.iterable [.str ['a']] true) 65536
    [.poll, .run false, .poll, .run false, .run false, .poll, .run false]).done = .exc ∧
  (W (.iterable [.str ['a']] true) 65536
    [.poll, .run false, .poll, .run false, .run false, .poll, .run false]).written = [97, 10] := by decide

/-- C43 refuted for strings: a function that returns a string sends one line per character. -/
theorem C43_str_chars (s : Str) (cap : Nat) (as : List Writer.Act) (hd : (W (.str s) cap as).done = .ok) :
    (W (.str s) cap as).written = s.flatMap (fun c => encode [c] ++ [NL]) := by
  have h := (Writer.C39_complete _ _ _ _ _ hd).1
  rw [h]
  show (Writer.values (s.map (fun c => convert (.str [c])))).flatMap _ = _
  clear h hd
  induction s with
  | nil => rfl
  | cons c s ih =>
    rw [List.map_cons]
    show (encode [c] :: Writer.values _).flatMap _ = _
    rw [List.flatMap_cons, List.flatMap_cons, ih]

theorem C43_str_refuted : ∃ (s : Str) (as : List Writer.Act), (W (.str s) 65536 as).done = .ok ∧
    (W (.str s) 65536 as).written ≠ expectedOutput (.str s) :=
  ⟨['h', 'i'], [.poll, .run false, .poll, .run false, .run false, .poll, .run false, .run false, .poll, .run false],
    by decide, by decide⟩

/-- C43 refuted for bytes: a function that returns bytes sends the numbers of its bytes. -/
theorem C43_bytes_refuted : ∃ (b : Bytes) (as : List Writer.Act), (W (.bytes b) 65536 as).done = .ok ∧
    (W (.bytes b) 65536 as).written = encode (c!"104" ++ ['\n'] ++ c!"105" ++ ['\n']) ∧
    (W (.bytes b) 65536 as).written ≠ expectedOutput (.bytes b) :=
  ⟨[104, 105], [.poll, .run false, .poll, .run false, .run false, .poll, .run false, .run false, .poll, .run false],
    by decide +kernel, by decide +kernel, by decide +kernel⟩

/-- C43 refuted for asynchronous iterables without `__anext__`: nothing is ever sent and the function never ends
normally. -/
theorem C43_async_iterable_refuted (items : List Val) (cap : Nat) (as : List Writer.Act) :
    (W (.asyncIterable items) cap as).done ≠ .ok ∧
    ((W (.asyncIterable items) cap as).readerGone = false → (W (.asyncIterable items) cap as).written = []) := by
  constructor
  · intro hd
    exact (Writer.C39_complete _ _ _ _ _ hd).2 (by simp [produced])
  · intro hr
    have h1 := Writer.C39_written _ _ _ _ _ hr
    have h2 := (Writer.C39_in_order [NL] (produced (.asyncIterable items)) cap 0 as).2
    rw [h1]
    have h3 : Writer.values (Writer.answers (W (.asyncIterable items) cap as).trace) = [] := by
      have h4 : Writer.answers (W (.asyncIterable items) cap as).trace <+: [.fail] := h2
      rcases List.prefix_cons_iff.1 h4 with e | ⟨t, e, ht⟩
      · rw [e]; rfl
      · rw [e, List.prefix_nil.1 ht]; rfl
    show (Writer.values (Writer.answers (W (.asyncIterable items) cap as).trace)).flatMap _ = _
    rw [h3]; rfl

example : (W (.asyncIterable [.str ['a']]) 65536 [.poll, .run false, .poll, .run false]).done = .exc := by decide

end Pieshell.Func
