import Verif.Lemmas.Registry
/-!
# C148: signal handlers get the events that they ask for

`signalio.SignalHandler(filter)` gets all events whose fields have the values in `filter`, from when it is made until it is destroyed, whatever other handlers there are.

That is so (`C148_partial`) as long as no two handlers ask for the same at the same time, filters name fields that all events have, no `handle_event` raises an exception, and handlers are destroyed at most once.
Otherwise it is not: a handler that asks for the same as another one silently replaces it (`C148_replaced`), destroying the one that was replaced removes the other one (`C148_wrong_one`),
and an exception for one handler takes the event, and the ones after it, from the handlers made after it (`C148_exception`).
-/
namespace Pieshell.Registry

/-- In a history in which nothing is wrong, a handler gets, from when it is made, exactly the events that it asks for, in their order, until it is destroyed or destroys itself. -/
theorem C148_partial {react : Nat → Info → Reaction} {f : Flt} {pre as : List Act} (h : Good react [] 0 (pre ++ .create f :: as)) :
    (St.init.run react (pre ++ .create f :: as)).got (creates pre) = due react (creates pre) f as := by
  obtain ⟨a, b, c, d⟩ := run_pre (react := react) (.create f :: as) pre [] St.init
    ⟨rfl, by simp, by simp, by simp, by simp⟩ h (fun _ _ => rfl)
  have hc : (St.init.run react pre).flts.length = creates pre := by rw [c]; simp [St.init]
  have := run_due (react := react) (h := creates pre) (f := f) as _ _ (a.create b.1 b.2.1) (by simpa [St.create] using b.2.2) (by rw [← hc]; simp)
  have hr : St.init.run react (pre ++ .create f :: as) = ((St.init.run react pre).create f).run react as := by simp [St.run, St.step]
  rw [hr, this]
  have h0 : ((St.init.run react pre).create f).got (creates pre) = [] := d _ (by omega)
  rw [h0, List.nil_append]

/-- The manager does not raise an exception in such a history. -/
theorem C148_no_exception {react : Nat → Info → Reaction} {as : List Act} {is : List Info} (h : Good react [] 0 (as ++ [.events is])) :
    (batch react is (St.init.run react as)).2 = false := by
  obtain ⟨a, b, _, _⟩ := run_pre (react := react) [.events is] as [] St.init
    ⟨rfl, by simp, by simp, by simp, by simp⟩ h (fun _ _ => rfl)
  obtain ⟨s', h1, _⟩ := batch_good is _ _ a b.1
  rw [h1]

/-- In any history: once a handler has been made that asks for the same as one made before, the one made before gets nothing any more, whatever happens. -/
theorem C148_replaced {react : Nat → Info → Reaction} {pre as : List Act} {f g : Flt} {h : Nat} (hh : (St.init.run react pre).flts[h]? = some g) (hf : f.Uniq) (hg : g.Uniq)
    (hs : Flt.Same f g) :
    (St.init.run react (pre ++ .create f :: as)).got h = (St.init.run react pre).got h := by
  have hi : RInv (St.init.run react pre) := RInv.run (react := react) pre RInv.init
  have hr : St.init.run react (pre ++ .create f :: as) = ((St.init.run react pre).create f).run react as := by simp [St.run, St.step]
  have hl := (List.getElem?_eq_some_iff.1 hh).1
  have ho : Out ((St.init.run react pre).create f) h := by
    refine ⟨by simp [St.create]; omega, ?_⟩
    intro p hp he
    have hi' := hi.create f
    have h1 := (hi'.ent p hp).2
    have h2 : ((St.init.run react pre).create f).flt p.2 = g := by
      rw [he]; simp only [St.flt, St.create]; rw [List.getElem?_append_left hl, hh]; rfl
    rw [h2, ← (key_eq hf hg).2 hs] at h1
    have h3 := Dict.get?_of_mem _ hi'.uniq (k := key f) (v := p.2) (by rw [← h1]; exact hp)
    have h4 : Dict.get? ((St.init.run react pre).create f).reg (key f) = some (St.init.run react pre).flts.length := by
      simp only [St.create]; rw [Dict.get?_set, if_pos rfl]
    rw [h4, Option.some.injEq, he] at h3
    omega
  rw [hr]
  exact (ho.run (react := react) as).2

/-- ... and if it is destroyed then, then it is the new one that gets nothing any more, and that cannot be destroyed: `KeyError`. -/
theorem C148_wrong_one {react : Nat → Info → Reaction} {pre as : List Act} {f g : Flt} {h : Nat} (hh : (St.init.run react pre).flts[h]? = some g) (hf : f.Uniq) (hg : g.Uniq)
    (hs : Flt.Same f g) :
    (St.init.run react (pre ++ .create f :: .destroy h :: as)).got (St.init.run react pre).flts.length =
      (St.init.run react pre).got (St.init.run react pre).flts.length ∧
    ((St.init.run react (pre ++ [.create f, .destroy h])).destroy (St.init.run react pre).flts.length).2 = true := by
  have hi : RInv (St.init.run react pre) := RInv.run (react := react) pre RInv.init
  have hi' := hi.create f
  generalize hs0 : St.init.run react pre = s at *
  have hl := (List.getElem?_eq_some_iff.1 hh).1
  have hk : key ((s.create f).flt h) = key f := by
    simp only [St.flt, St.create]; rw [List.getElem?_append_left hl, hh]; exact ((key_eq hf hg).2 hs).symm
  have hm : (s.create f).reg.mem (key f) = true := by simp only [Dict.mem, St.create, Dict.get?_set, if_pos]; rfl
  have hd : (s.create f).destroy h = ({ s.create f with reg := (s.create f).reg.erase (key f) }, false) := by simp only [St.destroy, hk, hm, if_true]
  have hlt : h < (s.create f).flts.length := by simp [St.create]; omega
  have hnone : ∀ p ∈ (s.create f).reg.erase (key f), p.1 ≠ key f := by
    intro p hp he
    have h1 := Dict.get?_of_mem _ (Dict.uniq_erase _ hi'.uniq (key f)) (k := p.1) (v := p.2) hp
    rw [Dict.get?_erase _ hi'.uniq, if_pos he.symm] at h1
    cases h1
  have hflt : (s.create f).flt s.flts.length = f := by simp [St.flt, St.create]
  constructor
  · have hr : St.init.run react (pre ++ .create f :: .destroy h :: as) = (((s.create f).destroy h).1).run react as := by
      simp only [St.run, List.foldl_append, List.foldl_cons, St.step] at hs0 ⊢
      rw [hs0, if_pos hlt]
    have ho : Out ((s.create f).destroy h).1 s.flts.length := by
      rw [hd]
      refine ⟨by simp [St.create], fun p hp he => hnone p hp ?_⟩
      rw [(hi'.ent p (Dict.mem_erase hp)).2, he, hflt]
    rw [hr, (ho.run (react := react) as).2, destroy_got]; rfl
  · have hr : St.init.run react (pre ++ [.create f, .destroy h]) = ((s.create f).destroy h).1 := by
      simp only [St.run, List.foldl_append, List.foldl_cons, List.foldl_nil, St.step] at hs0 ⊢
      rw [hs0, if_pos hlt]
    rw [hr, hd]
    simp only [St.destroy]
    rw [show (St.flt { s.create f with reg := (s.create f).reg.erase (key f) } s.flts.length) = f from hflt]
    have : Dict.mem ((s.create f).reg.erase (key f)) (key f) = false := by
      simp only [Dict.mem, Dict.get?_erase _ hi'.uniq, if_pos]; rfl
    simp only [this]; rfl

/-- An exception for one handler takes the event, and all the others that have been found with it, from all handlers made after it; and it comes out of the manager. -/
theorem C148_exception {react : Nat → Info → Reaction} {as : List Act} (hgood : Good react [] 0 as) {x : Nat} {f : Flt} (hx : (x, f) ∈ after react [] 0 as)
    {i : Info} (hr : Raises react i x f) (is : List Info) :
    (batch react (i :: is) (St.init.run react as)).2 = true ∧
    ∀ j, x < j → (St.init.run react (as ++ [.events (i :: is)])).got j = (St.init.run react as).got j := by
  obtain ⟨a, _, _, _⟩ := run_pre (react := react) [] as [] St.init
    ⟨rfl, by simp, by simp, by simp, by simp⟩ (by rw [List.append_nil]; exact hgood) (fun _ _ => rfl)
  have hrun : ∀ j, (St.init.run react (as ++ [.events (i :: is)])).got j = (batch react (i :: is) (St.init.run react as)).1.got j := by
    intro j; simp [St.run, St.step]
  generalize St.init.run react as = s at *
  rw [show St.init.flts.length = 0 from rfl] at a
  generalize after react [] 0 as = live at *
  obtain ⟨L, M, rfl⟩ := List.append_of_mem hx
  have hreg : s.reg = L.map ent ++ ent (x, f) :: M.map ent := by rw [a.reg]; simp
  have hord := a.ord
  simp only [List.map_append, List.map_cons, List.pairwise_append, List.pairwise_cons] at hord
  have key1 : (dispatch react i s.reg s).2 = true ∧ ∀ j, x < j → (dispatch react i s.reg s).1.got j = s.got j := by
    obtain ⟨b1, _, _, b4⟩ := dispatch_frame react i (L.map ent) s
    have hj : ∀ j, x < j → (dispatch react i (L.map ent) s).1.got j = s.got j := fun j hj => b4 j (fun hm => by
      obtain ⟨p, hp, he⟩ := List.mem_map.1 hm
      obtain ⟨q, hq, rfl⟩ := List.mem_map.1 hp
      have := hord.2.2 q.1 (List.mem_map_of_mem hq) x List.mem_cons_self
      simp only [ent] at he
      omega)
    rw [hreg, dispatch_append]
    cases hd : dispatch react i (L.map ent) s with
    | mk t b =>
    rw [hd] at b1 hj
    simp only at b1 hj
    cases b with
    | true => exact ⟨rfl, hj⟩
    | false =>
      have hflt : t.flt x = f := by
        have := flt_of a hx
        simpa only [St.flt, b1] using this
      simp only [ent, dispatch, hflt]
      rcases hr with hr | ⟨hr1, hr2⟩
      · rw [match_none.2 hr]; exact ⟨rfl, hj⟩
      · rw [match_true.2 hr1]
        simp only [hr2]
        refine ⟨trivial, fun j hxj => ?_⟩
        rw [← hj j hxj]; simp [St.give, show j ≠ x by omega]
  have hb : batch react (i :: is) s = dispatch react i s.reg s := by
    simp only [batch]
    cases he : dispatch react i s.reg s with
    | mk t b =>
      rw [he] at key1
      simp only at key1
      simp only [key1.1]
  refine ⟨by rw [hb]; exact key1.1, fun j hj => ?_⟩
  rw [hrun, hb]; exact key1.2 j hj

/-! ### C149: a handler gets nothing else

The half of C148 that holds in every history, whatever is wrong in it. -/

/-- What a handler gets is among the events that it asks for (each at most once, in their order), none of them after `destroy()` has been called for it, also if that has raised an exception. -/
theorem C149_nothing_else {react : Nat → Info → Reaction} {f : Flt} {pre as : List Act} :
    ((St.init.run react (pre ++ .create f :: as)).got (creates pre)).Sublist (asked (creates pre) f as) := by
  obtain ⟨c, d⟩ := got_new (react := react) pre St.init RInv.init (fun _ _ => rfl)
  have hc : (St.init.run react pre).flts.length = creates pre := by rw [c]; simp [St.init]
  have hr : St.init.run react (pre ++ .create f :: as) = ((St.init.run react pre).create f).run react as := by simp [St.run, St.step]
  have h0 : ((St.init.run react pre).create f).got (creates pre) = [] := d _ (by omega)
  obtain ⟨l, h1, h2, _⟩ := run_one (react := react) (h := creates pre) (f := f) as ((St.init.run react pre).create f) ((RInv.run (react := react) pre RInv.init).create f)
    (by simp [St.create, ← hc]) (fun a i b he _ => by rw [h0] at he; simp at he)
  rw [hr, h1, h0]; exact h2

/-- ... and the one at which it has destroyed itself is the last one. -/
theorem C149_last {react : Nat → Info → Reaction} {f : Flt} {pre as : List Act} {a b : List Info} {i : Info}
    (he : (St.init.run react (pre ++ .create f :: as)).got (creates pre) = a ++ i :: b) (hq : react (creates pre) i = .quit) : b = [] := by
  obtain ⟨c, d⟩ := got_new (react := react) pre St.init RInv.init (fun _ _ => rfl)
  have hc : (St.init.run react pre).flts.length = creates pre := by rw [c]; simp [St.init]
  have hr : St.init.run react (pre ++ .create f :: as) = ((St.init.run react pre).create f).run react as := by simp [St.run, St.step]
  have h0 : ((St.init.run react pre).create f).got (creates pre) = [] := d _ (by omega)
  obtain ⟨l, _, _, h3⟩ := run_one (react := react) (h := creates pre) (f := f) as ((St.init.run react pre).create f) ((RInv.run (react := react) pre RInv.init).create f)
    (by simp [St.create, ← hc]) (fun a i b he _ => by rw [h0] at he; simp at he)
  rw [hr] at he
  exact (h3 a i b he hq).1

/-! ### Cases -/

/-- CTRL-Z's handler, the one for process 100, and an event: process `p` has ended (or, signal 20, CTRL-Z). -/
def tstp : Flt := [(c!"ssi_signo", 20)]
@[inherit_doc tstp] def proc (p : Int) : Flt := [(c!"ssi_pid", p)]
@[inherit_doc tstp] def ev (signo p : Int) : Info := fun k => if k = c!"ssi_signo" then some signo else if k = c!"ssi_pid" then some p else none
/-- Handlers for processes go when their process has ended; the one for CTRL-Z (number 0) stays. -/
def quits : Nat → Info → Reaction := fun h _ => if h = 0 then .keep else .quit

theorem ev_signo (n p : Int) : ev n p c!"ssi_signo" = some n := by simp [ev]
theorem ev_pid (n p : Int) : ev n p c!"ssi_pid" = some p := by simp [ev]
theorem fits_tstp (n p : Int) : Fits (ev n p) tstp ↔ n = 20 := by simp [Fits, tstp, ev_signo]
theorem fits_proc (n p q : Int) : Fits (ev n p) (proc q) ↔ p = q := by simp [Fits, proc, ev_pid]

/-- CTRL-Z's handler; one for process 100; it ends, with another one; then another process gets the number 100, and ends. -/
def history : List Act := [.create tstp, .create (proc 100), .events [ev 17 99, ev 17 100, ev 17 100], .create (proc 100), .events [ev 20 5, ev 17 100]]

theorem history_good : Good quits [] 0 history := by
  have h1 : stay quits ([] ++ [(0, tstp)] ++ [(1, proc 100)]) [ev 17 99, ev 17 100, ev 17 100] = [(0, tstp)] := by
    simp [stay, dueOf, fits_tstp, fits_proc, quits]
  have hn : ∀ a b : Int, Names (ev a b) tstp ∧ ∀ q, Names (ev a b) (proc q) := fun a b => by
    simp [Names, tstp, proc, ev_signo, ev_pid]
  have hr : ∀ h i, quits h i ≠ .raise := fun h i => by simp only [quits]; split <;> simp
  have hs : ¬ Flt.Same (proc 100) tstp := fun h => by
    have := (h (c!"ssi_pid", 100)).1 (by simp [proc])
    simp [tstp] at this
  have hu : (proc 100).Uniq ∧ tstp.Uniq := by simp [Dict.Uniq, Dict.keys, proc, tstp]
  refine ⟨hu.2, by simp, hu.1, by simpa using hs, ⟨?_, ?_⟩⟩
  · intro i hi
    refine ⟨fun p hp => ?_, fun h => hr h i⟩
    simp only [List.mem_cons, List.not_mem_nil, or_false] at hi
    simp only [List.nil_append, List.cons_append, List.mem_cons, List.not_mem_nil, or_false] at hp
    rcases hi with rfl | rfl | rfl <;> rcases hp with rfl | rfl <;> first | exact (hn _ _).1 | exact (hn _ _).2 _
  · simp only [Nat.zero_add, Nat.reduceAdd] at h1 ⊢
    rw [h1]
    refine ⟨hu.1, by simpa using hs, ⟨?_, trivial⟩⟩
    intro i hi
    refine ⟨fun p hp => ?_, fun h => hr h i⟩
    simp only [List.mem_cons, List.not_mem_nil, or_false] at hi
    simp only [List.cons_append, List.nil_append, List.mem_cons, List.not_mem_nil, or_false] at hp
    rcases hi with rfl | rfl <;> rcases hp with rfl | rfl <;> first | exact (hn _ _).1 | exact (hn _ _).2 _

/-- `C148_partial`: the handler of the first process gets its one event, not the one after it has gone nor the one of the process that has its number later. -/
example : (St.init.run quits history).got 1 = [ev 17 100] := by
  rw [show history = [.create tstp] ++ .create (proc 100) :: [.events [ev 17 99, ev 17 100, ev 17 100], .create (proc 100), .events [ev 20 5, ev 17 100]] from rfl]
  rw [show (1 : Nat) = creates [.create tstp] from rfl, C148_partial history_good]
  simp [due, dueOf, fits_proc, quits, creates]

/-- ... and that of CTRL-Z gets CTRL-Z. -/
example : (St.init.run quits history).got 0 = [ev 20 5] := by
  rw [show history = [] ++ .create tstp :: [.create (proc 100), .events [ev 17 99, ev 17 100, ev 17 100], .create (proc 100), .events [ev 20 5, ev 17 100]] from rfl]
  rw [show (0 : Nat) = creates [] from rfl, C148_partial history_good]
  simp [due, dueOf, fits_tstp, quits, creates]

/-- `C148_no_exception`: its hypothesis. -/
example : (batch quits [ev 20 5, ev 17 100] (St.init.run quits history.dropLast)).2 = false := C148_no_exception (by exact history_good)

/-- `C148_replaced`: a user's handler for a running process replaces pieshell's own, which never learns that the process has ended, in any history. -/
example (react : Nat → Info → Reaction) (as : List Act) :
    (St.init.run react ([.create tstp, .create (proc 100)] ++ .create (proc 100) :: as)).got 1 = [] :=
  (C148_replaced (pre := [.create tstp, .create (proc 100)]) (g := proc 100) rfl (by simp [Dict.Uniq, Dict.keys, proc]) (by simp [Dict.Uniq, Dict.keys, proc]) (fun _ => Iff.rfl)).trans rfl

/-- ... also if the fields are in another order. -/
example : Flt.Same [(c!"ssi_pid", 7), (c!"ssi_code", 1)] [(c!"ssi_code", 1), (c!"ssi_pid", 7)] := fun x => by simp [or_comm]

/-- `C148_wrong_one`: destroying pieshell's removes the user's. -/
example (react : Nat → Info → Reaction) (as : List Act) :
    (St.init.run react ([.create tstp, .create (proc 100)] ++ .create (proc 100) :: .destroy 1 :: as)).got 2 = [] :=
  ((C148_wrong_one (pre := [.create tstp, .create (proc 100)]) (g := proc 100) rfl (by simp [Dict.Uniq, Dict.keys, proc]) (by simp [Dict.Uniq, Dict.keys, proc]) (fun _ => Iff.rfl)).1).trans rfl

/-- `C148_exception`: a filter with a field that there is not; no process that is started later is ever seen to have ended. -/
example (is : List Info) : (St.init.run quits ([.create [(c!"si_pid", 3)], .create (proc 100)] ++ [.events (ev 17 100 :: is)])).got 1 = [] := by
  have hs : ¬ Flt.Same (proc 100) [(c!"si_pid", 3)] := fun h => by
    have := (h (c!"ssi_pid", 100)).1 (by simp [proc])
    simp at this
  refine ((C148_exception (x := 0) (f := [(c!"si_pid", 3)]) (react := quits) (as := [.create [(c!"si_pid", 3)], .create (proc 100)]) ?_ (by simp [after])
    (i := ev 17 100) (.inl ⟨[], c!"si_pid", 3, [], rfl, by simp [Fits], by simp [ev]⟩) is).2 1 (by decide)).trans rfl
  exact ⟨by simp [Dict.Uniq, Dict.keys], by simp, by simp [Dict.Uniq, Dict.keys, proc], by simpa using hs, trivial⟩

/-- `C149_nothing_else` in a history with a replaced handler: it gets what comes before that. -/
example : asked 0 (proc 7) [.events [ev 17 7, ev 17 8], .create (proc 7), .events [ev 17 7], .destroy 0, .events [ev 17 7]] = [ev 17 7, ev 17 7] ∧
    (St.init.run (fun _ _ => .keep) ([] ++ .create (proc 7) :: [.events [ev 17 7, ev 17 8], .create (proc 7), .events [ev 17 7], .destroy 0, .events [ev 17 7]])).got 0 = [ev 17 7] := by
  constructor
  · simp [asked, fits_proc]
  · rfl

/-- `C149_last`: its hypotheses. -/
example : (St.init.run quits history).got 1 = [] ++ ev 17 100 :: [] ∧ quits 1 (ev 17 100) = .quit := ⟨rfl, rfl⟩

end Pieshell.Registry
