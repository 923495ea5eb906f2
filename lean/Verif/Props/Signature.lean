import Verif.Lemmas.Signature
import Verif.Props.Args
/-! C89: the keyword parameters of a command are the options its `--help` prints. -/
namespace Pieshell.Sgn
open Pieshell.Cmd (Val Elem argList argDict)

/-! ### Lemmas on the table -/

theorem mem_foldl_addTo (l vs : List Str) (x : Str) : x ∈ l.foldl addTo vs ↔ x ∈ vs ∨ x ∈ l := by
  induction l generalizing vs with
  | nil => simp
  | cons a l ih =>
    rw [List.foldl_cons, ih, addTo]
    split
    · rename_i h
      simp only [List.contains_eq_mem, decide_eq_true_eq] at h
      constructor
      · rintro (h1 | h1)
        · exact .inl h1
        · exact .inr (by simp [h1])
      · rintro (h1 | h1)
        · exact .inl h1
        · rcases List.mem_cons.1 h1 with rfl | h1
          · exact .inl h
          · exact .inr h1
    · simp only [List.mem_append, List.mem_cons, List.not_mem_nil, or_false]
      constructor
      · rintro ((h | h) | h)
        · exact .inl h
        · exact .inr (.inl h)
        · exact .inr (.inr h)
      · rintro (h | h | h)
        · exact .inl (.inl h)
        · exact .inl (.inr h)
        · exact .inr h

theorem dropWhile_nil (p : Char → Bool) (l : Str) (h : l.dropWhile p = []) : ∀ c ∈ l, p c = true := by
  induction l with
  | nil => intro c hc; cases hc
  | cons a l ih =>
    rw [List.dropWhile_cons] at h
    split at h
    · rename_i ha
      intro c hc
      rcases List.mem_cons.1 hc with rfl | hc
      · exact ha
      · exact ih h c hc
    · cases h

instance (c : Char) : Decidable (Letter c) := by unfold Letter; infer_instance

/-- The values noted for a name. -/
def noted (d : Dict Str (List Str)) (p x : Str) : Prop := ∃ vs, d.get? p = some vs ∧ x ∈ vs

theorem valuesOf_ne (v : Str) : valuesOf v ≠ [] := by
  simp only [valuesOf]; split <;> simp

theorem collect_fold (ms : List (Str × Str)) (d : Dict Str (List Str)) (hd : d.Uniq) :
    let e := ms.foldl (fun d m => d.set (underscores m.1) ((valuesOf m.2).foldl addTo ((d.get? (underscores m.1)).getD []))) d
    e.Uniq ∧ ∀ p x, noted e p x ↔ noted d p x ∨ ∃ m ∈ ms, underscores m.1 = p ∧ x ∈ valuesOf m.2 := by
  induction ms generalizing d with
  | nil => exact ⟨hd, fun p x => by simp⟩
  | cons m ms ih =>
    simp only [List.foldl_cons]
    obtain ⟨h1, h2⟩ := ih _ (Dict.uniq_set d hd (underscores m.1) ((valuesOf m.2).foldl addTo ((d.get? (underscores m.1)).getD [])))
    refine ⟨h1, fun p x => ?_⟩
    rw [h2]
    have : noted (d.set (underscores m.1) ((valuesOf m.2).foldl addTo ((d.get? (underscores m.1)).getD []))) p x ↔
        noted d p x ∨ (underscores m.1 = p ∧ x ∈ valuesOf m.2) := by
      simp only [noted, Dict.get?_set]
      by_cases e : underscores m.1 = p
      · subst e
        simp only [if_true, Option.some.injEq, exists_eq_left', mem_foldl_addTo, true_and]
        cases d.get? (underscores m.1) <;> simp
      · simp [e]
    rw [this]
    constructor
    · rintro ((h | h) | ⟨m', h, h'⟩)
      · exact .inl h
      · exact .inr ⟨m, by simp, h⟩
      · exact .inr ⟨m', by simp [h], h'⟩
    · rintro (h | ⟨m', h, h'⟩)
      · exact .inl (.inl h)
      · rcases List.mem_cons.1 h with rfl | h
        · exact .inl (.inr h')
        · exact .inr ⟨m', h, h'⟩

theorem collect_ne (ms : List (Str × Str)) (d : Dict Str (List Str)) (hd : ∀ p vs, d.get? p = some vs → vs ≠ []) :
    ∀ p vs, (ms.foldl (fun d m => d.set (underscores m.1) ((valuesOf m.2).foldl addTo ((d.get? (underscores m.1)).getD []))) d).get? p = some vs → vs ≠ [] := by
  induction ms generalizing d with
  | nil => exact hd
  | cons m ms ih =>
    refine ih _ ?_
    intro p vs h
    rw [Dict.get?_set] at h
    split at h
    · cases h
      intro e
      cases hv : valuesOf m.2 with
      | nil => exact valuesOf_ne _ hv
      | cons x l =>
        have := (mem_foldl_addTo (valuesOf m.2) ((d.get? (underscores m.1)).getD []) x).2 (.inr (by simp [hv]))
        rw [e] at this; cases this
    · exact hd p vs h

theorem noted_iff (ms : List (Str × Str)) (p x : Str) : noted (collect ms) p x ↔ ∃ m ∈ ms, underscores m.1 = p ∧ x ∈ valuesOf m.2 := by
  have := (collect_fold ms [] (Dict.uniq_nil)).2 p x
  simpa [noted, Dict.get?, collect] using this

theorem mem_keys_collect (ms : List (Str × Str)) (p : Str) : p ∈ (collect ms).keys ↔ ∃ m ∈ ms, underscores m.1 = p := by
  rw [Dict.mem_keys_iff]
  constructor
  · rintro ⟨vs, h⟩
    have hne := collect_ne ms [] (fun p vs h => by cases h) p vs h
    cases vs with
    | nil => exact absurd rfl hne
    | cons x vs =>
      obtain ⟨m, h1, h2, -⟩ := (noted_iff ms p x).1 ⟨_, h, by simp⟩
      exact ⟨m, h1, h2⟩
  · rintro ⟨m, h1, h2⟩
    cases hv : valuesOf m.2 with
    | nil => exact absurd hv (valuesOf_ne _)
    | cons x l =>
      obtain ⟨vs, h, -⟩ := (noted_iff ms p x).2 ⟨m, h1, h2, by simp [hv]⟩
      exact ⟨vs, h⟩

/-- The parameter for a name and its values. -/
def toParam (py : Py) (n : Str) (vs : List Str) : Param :=
  let es := members py.upper (py.order (vs.filter isEnum))
  ⟨n, vs.contains [], plainTypes vs ++ (if es = [] then [] else [.enum (es.map Prod.snd)])⟩

theorem params_ok {py : Py} {d : Dict Str (List Str)} {ps : List Param}
    (h : params py d = .ok ps) : ps = d.map (fun x => toParam py x.1 x.2) := by
  induction d generalizing ps with
  | nil => simp only [params] at h; cases h; rfl
  | cons x d ih =>
    obtain ⟨n, vs⟩ := x
    simp only [params] at h
    split at h
    · cases h
    · rename_i p hp
      split at h
      · cases h
      · rename_i l hl
        cases h
        rw [ih hl]
        simp only [param] at hp
        split at hp
        · cases hp
        · split at hp
          · cases hp
          · cases hp; rfl

/-- Every entry of the members has its name from its value, and every value one with its name. -/
theorem members_fold (upper : Str → Str) (es : List Str) (d : Dict Str Str) (hd : ∀ k v, d.get? k = some v → upper v = k) :
    let e := es.foldl (fun d v => d.set (upper v) v) d
    (∀ k v, e.get? k = some v → upper v = k) ∧ (∀ k, k ∈ e.keys ↔ k ∈ d.keys ∨ ∃ v ∈ es, upper v = k) := by
  induction es generalizing d with
  | nil => exact ⟨hd, by simp⟩
  | cons a es ih =>
    obtain ⟨h1, h2⟩ := ih (d.set (upper a) a) (by
      intro k v h
      rw [Dict.get?_set] at h
      split at h
      · cases h; assumption
      · exact hd k v h)
    refine ⟨h1, fun k => ?_⟩
    have : k ∈ (d.set (upper a) a).keys ↔ k ∈ d.keys ∨ upper a = k := by
      simp only [Dict.mem_keys_iff, Dict.get?_set]
      by_cases e : upper a = k
      · simp [e]
      · simp [e]
    simp only [List.foldl_cons]
    rw [h2, this]
    simp [or_assoc]

theorem members_mem (upper : Str → Str) (es : List Str) (x : Str) (hx : x ∈ es) :
    ∃ y ∈ (members upper es).map Prod.snd, upper y = upper x := by
  obtain ⟨h1, h2⟩ := members_fold upper es [] (fun k v h => by cases h)
  have := (h2 (upper x)).2 (.inr ⟨x, hx, rfl⟩)
  obtain ⟨y, hy⟩ := (Dict.mem_keys_iff _ _).1 this
  exact ⟨y, List.mem_map.2 ⟨(upper x, y), Dict.mem_of_get? _ hy, rfl⟩, h1 _ _ hy⟩

/-! ### C89 -/

/-- **C89**: for every text: the keyword parameters are exactly the options printed, each once. An option is printed if a word of the
text begins with two dashes, a letter, and at least one more letter or dash; its name goes on as long as there are letters and
dashes.  Missing: options with digits, and names python refuses, see below. -/
theorem C89_options_partial (py : Py) (hws : WsOk py.ws) (help : Str) (ps : List Param)
    (h : signature py help = .ok ps) :
    (ps.map Param.name).Nodup ∧
    ∀ p, p ∈ ps.map Param.name ↔ ∃ w n rest, WordIn py.ws help w ∧ Prints w n rest ∧ p = n.map (fun c => if c = '-' then '_' else c) := by
  have h1 := params_ok h
  have h2 : ps.map Param.name = (collect (findall py.ws help)).keys := by rw [h1]; simp [Dict.keys, toParam]
  rw [h2]
  refine ⟨(collect_fold (findall py.ws help) [] (Dict.uniq_nil)).1, fun p => ?_⟩
  rw [mem_keys_collect]
  constructor
  · rintro ⟨⟨n, v⟩, hm, rfl⟩
    obtain ⟨w, hw, rest, hp, -⟩ := (mem_findall hws help n v).1 hm
    exact ⟨w, n, rest, hw, hp, rfl⟩
  · rintro ⟨w, n, rest, hw, hp, rfl⟩
    by_cases hv : rest.head? = some '=' ∨ rest.take 2 = c!"[="
    · exact ⟨(n, rest), (mem_findall hws help n rest).2 ⟨w, hw, rest, hp, .inl ⟨hv, rfl⟩⟩, rfl⟩
    · refine ⟨(n, []), (mem_findall hws help n []).2 ⟨w, hw, rest, hp, .inr ⟨fun e => hv (.inl e), fun e => hv (.inr e), rfl⟩⟩, rfl⟩

/-- **C89**: a parameter can be left out (default `False`) if the option is printed without a value or with an optional one `[=...]`, and
only if it is so printed or its value is made of `=`, blanks and dots. -/
theorem C89_flags (py : Py) (hws : WsOk py.ws) (help : Str) (ps : List Param)
    (h : signature py help = .ok ps) (q : Param) (hq : q ∈ ps) :
    (∀ w n rest v, WordIn py.ws help w → Prints w n rest → ValueText rest v → q.name = n.map (fun c => if c = '-' then '_' else c) →
      (v = [] ∨ v.head? = some '[') → q.default = true ∧ Ty.bool ∈ q.types) ∧
    (q.default = true → ∃ w n rest v, WordIn py.ws help w ∧ Prints w n rest ∧ ValueText rest v ∧ q.name = n.map (fun c => if c = '-' then '_' else c) ∧
      (v.head? = some '[' ∨ ∀ c ∈ v, c = '=' ∨ c = ' ' ∨ c = '.')) := by
  have h1 := params_ok h
  have hu : (collect (findall py.ws help)).Uniq := (collect_fold (findall py.ws help) [] (Dict.uniq_nil)).1
  subst h1
  obtain ⟨⟨p, vs⟩, hmem, rfl⟩ := List.mem_map.1 hq
  have hget := Dict.get?_of_mem _ hu hmem
  constructor
  · intro w n rest v hw hp hv hn hv'
    have : [] ∈ vs := by
      obtain ⟨vs', e1, e2⟩ := (noted_iff (findall py.ws help) p []).2 ⟨(n, v), (mem_findall hws help n v).2 ⟨w, hw, rest, hp, hv⟩, hn.symm, by
        rcases hv' with rfl | hv'
        · simp [valuesOf, strip]
        · simp [valuesOf, hv']⟩
      rw [hget] at e1; cases e1; exact e2
    have hc : vs.contains [] = true := by simpa using this
    exact ⟨hc, by simp [toParam, plainTypes, this]⟩
  · intro hd
    have : ([] : Str) ∈ vs := by simpa [toParam] using hd
    obtain ⟨⟨n, v⟩, hm, hn, hx⟩ := (noted_iff (findall py.ws help) p []).1 ⟨vs, hget, this⟩
    obtain ⟨w, hw, rest, hp, hv⟩ := (mem_findall hws help n v).1 hm
    refine ⟨w, n, rest, v, hw, hp, hv, hn.symm, ?_⟩
    simp only [valuesOf] at hx
    split at hx
    · rename_i hb; exact .inl hb
    · right
      simp only [List.mem_singleton] at hx
      have hstrip : ∀ c ∈ strip v, c = '=' := by
        intro c hc
        have := dropWhile_nil _ _ hx.symm c hc
        simpa using this
      intro c hc
      by_cases hs : c = ' ' ∨ c = '.'
      · exact .inr hs
      · left
        apply hstrip
        have hp' : ∀ (l : Str), c ∈ l → c ∈ l.dropWhile (fun c => c == ' ' || c == '.') := by
          intro l hl
          induction l with
          | nil => cases hl
          | cons a l ih =>
            rw [List.dropWhile_cons]
            split
            · rename_i ha
              rcases List.mem_cons.1 hl with rfl | hl
              · exact absurd (by simpa using ha) hs
              · exact ih hl
            · exact hl
        rw [strip, List.mem_reverse]
        exact hp' _ (List.mem_reverse.2 (hp' v hc))

/-- **C89**: a value printed as `=<number>` makes the parameter accept an `int`, one printed as `=<...>` a `str`, and a word is one of the values
of the parameter's enumeration, unless that has a value that differs in case only. -/
theorem C89_values (py : Py) (hws : WsOk py.ws) (hord : ∀ l x, x ∈ py.order l ↔ x ∈ l) (help : Str) (ps : List Param)
    (h : signature py help = .ok ps) (q : Param) (hq : q ∈ ps) (w n x : Str) (hw : WordIn py.ws help w)
    (hp : Prints w n ('=' :: x)) (hn : q.name = n.map (fun c => if c = '-' then '_' else c)) :
    (x = c!"<number>" → Ty.int ∈ q.types) ∧
    (∀ y, x = '<' :: y → x ≠ c!"<number>" → y.getLast? = some '>' → Ty.str ∈ q.types) ∧
    (∀ a b, x.head? = some a → x.getLast? = some b → a ≠ '<' → a ≠ '=' → b ≠ '.' → b ≠ ' ' → ∃ es y, Ty.enum es ∈ q.types ∧ y ∈ es ∧ py.upper y = py.upper x) := by
  have h1 := params_ok h
  have hu : (collect (findall py.ws help)).Uniq := (collect_fold (findall py.ws help) [] (Dict.uniq_nil)).1
  subst h1
  obtain ⟨⟨p, vs⟩, hmem, rfl⟩ := List.mem_map.1 hq
  have hget := Dict.get?_of_mem _ hu hmem
  have key : ∀ b, x.getLast? = some b → b ≠ '.' → b ≠ ' ' → x.head? ≠ some '=' → x ∈ vs := by
    intro b hb h1 h2 h3
    obtain ⟨vs', e1, e2⟩ := (noted_iff (findall py.ws help) p x).2 ⟨(n, '=' :: x), (mem_findall hws help n _).2 ⟨w, hw, _, hp, .inl ⟨.inl rfl, rfl⟩⟩, hn.symm, by
      simp only [valuesOf, List.head?_cons, Option.some.injEq, Char.reduceEq, if_false, List.mem_singleton]
      have hs : strip ('=' :: x) = '=' :: x := by
        simp only [strip]
        have e1 : ('=' :: x).dropWhile (fun c => c == ' ' || c == '.') = '=' :: x := by simp
        rw [e1]
        have e2 : (('=' :: x).reverse).dropWhile (fun c => c == ' ' || c == '.') = ('=' :: x).reverse := by
          have : ('=' :: x).reverse.head? = some b := by
            rw [List.head?_reverse, List.getLast?_cons, hb]; rfl
          cases hr : ('=' :: x).reverse with
          | nil => rfl
          | cons c l =>
            rw [hr] at this
            simp only [List.head?_cons, Option.some.injEq] at this
            subst this
            simp [h1, h2]
        rw [e2, List.reverse_reverse]
      rw [hs, List.dropWhile_cons]
      simp only [beq_self_eq_true, if_true]
      cases x with
      | nil => rfl
      | cons c l =>
        have : c ≠ '=' := fun e => h3 (by rw [e]; rfl)
        simp [this]⟩
    rw [hget] at e1; cases e1; exact e2
  refine ⟨?_, ?_, ?_⟩
  · intro e
    have := key '>' (by rw [e]; rfl) (by decide) (by decide) (by rw [e]; decide)
    rw [e] at this
    simp [toParam, plainTypes, this]
  · intro y e hne hl
    have hy : y ≠ [] := by rintro rfl; cases hl
    have := key '>' (by rw [e, List.getLast?_cons, hl]; rfl) (by decide) (by decide) (by rw [e]; simp)
    have h2 : vs.any (fun v => v.head? = some '<' && v ≠ c!"<number>") = true := by
      rw [List.any_eq_true]
      exact ⟨x, this, by rw [e] at hne ⊢; simp [hne]⟩
    simp only [toParam, plainTypes, h2, if_true]
    simp
  · intro a b ha hb h1 h2 h3 h4
    have hx := key b hb h3 h4 (by rw [ha]; simpa using h2)
    have he : isEnum x = true := by
      cases x with
      | nil => cases ha
      | cons c l =>
        simp only [List.head?_cons, Option.some.injEq] at ha
        subst ha
        simp [isEnum, h1]
    have hm : x ∈ vs.filter isEnum := List.mem_filter.2 ⟨hx, he⟩
    obtain ⟨y, hy, hyx⟩ := members_mem py.upper _ x ((hord _ x).2 hm)
    refine ⟨(members py.upper (py.order (vs.filter isEnum))).map Prod.snd, y, ?_, hy, hyx⟩
    have : members py.upper (py.order (vs.filter isEnum)) ≠ [] := fun e => by rw [e] at hy; cases hy
    simp only [toParam, if_neg this]
    simp

/-- **C89**: a parameter, given the value `True`, is passed to the program as the option that was printed; given a string, as that option
followed by `=` and the string's expansions. -/
theorem C89_usable {σ : Type} (expand : Str → Except Exn (List Str)) (pipe : Nat → σ → Str × σ) (n : Str) (hn : OptionName n) (s : σ) :
    argList expand pipe [.dict [(n.map (fun c => if c = '-' then '_' else c), .bool true)]] s = .ok ([.str (c!"--" ++ n)], s) ∧
    ∀ v ms, expand v = .ok ms →
      argList expand pipe [.dict [(n.map (fun c => if c = '-' then '_' else c), .str v)]] s = .ok (ms.map (fun m => .str (c!"--" ++ n ++ c!"=" ++ m)), s) := by
  have hback : (n.map (fun c => if c = '-' then '_' else c)).map (fun c => if c = '_' then '-' else c) = n := by
    have hall : ∀ x ∈ n, x ≠ '_' := by
      obtain ⟨c, d, t, rfl, hc, ht⟩ := hn
      have hl : ∀ x, Letter x → x ≠ '_' := by
        rintro x hx rfl
        exact absurd hx (by decide)
      intro x hx
      rcases List.mem_cons.1 hx with rfl | hx
      · exact hl _ hc
      · rcases ht x hx with rfl | h
        · decide
        · exact hl _ h
    rw [List.map_map]
    conv => rhs; rw [← List.map_id n]
    refine List.map_congr_left (fun x hx => ?_)
    have := hall x hx
    by_cases e : x = '-'
    · subst e; rfl
    · simp [e, this]
  obtain ⟨-, h2, -⟩ := Cmd.C23_options expand pipe (n.map (fun c => if c = '-' then '_' else c)) [] s
  obtain ⟨h3, h4, -⟩ := h2 [] s rfl
  rw [hback] at h3
  constructor
  · simp [argList, h3]
  · intro v ms hv
    have := h4 v ms hv
    simp only [Cmd.optionWords, hback] at this
    simp [argList, this]

/-- The signature cannot be computed exactly if one of the options has a name python refuses as that of a parameter, or values of which
no enumeration can be made. -/
theorem fails_iff (py : Py) (help : Str) :
    (∃ e, signature py help = .error e) ↔
      ∃ p vs, (p, vs) ∈ collect (findall py.ws help) ∧ (py.refused p = true ∨ (members py.upper (py.order (vs.filter isEnum)) ≠ [] ∧ py.enumFails (members py.upper (py.order (vs.filter isEnum))).keys = true)) := by
  simp only [signature]
  generalize collect (findall py.ws help) = d
  induction d with
  | nil => simp [params]
  | cons x d ih =>
    obtain ⟨n, vs⟩ := x
    have hp : (∃ e, param py n vs = .error e) ↔ (py.refused n = true ∨ (members py.upper (py.order (vs.filter isEnum)) ≠ [] ∧ py.enumFails (members py.upper (py.order (vs.filter isEnum))).keys = true)) := by
      simp only [param]
      split
      · rename_i h; exact ⟨fun _ => .inr h, fun _ => ⟨_, rfl⟩⟩
      · rename_i h
        split
        · rename_i h'; exact ⟨fun _ => .inl h', fun _ => ⟨_, rfl⟩⟩
        · rename_i h'
          constructor
          · rintro ⟨e, he⟩; cases he
          · rintro (h1 | h1)
            · exact absurd h1 h'
            · exact absurd h1 h
    simp only [params]
    cases e1 : param py n vs with
    | error e =>
      have := hp.1 ⟨e, e1⟩
      exact ⟨fun _ => ⟨n, vs, by simp, this⟩, fun _ => ⟨e, rfl⟩⟩
    | ok q =>
      have hn : ¬ (py.refused n = true ∨ (members py.upper (py.order (vs.filter isEnum)) ≠ [] ∧ py.enumFails (members py.upper (py.order (vs.filter isEnum))).keys = true)) := by
        intro h; obtain ⟨e, he⟩ := hp.2 h; rw [e1] at he; cases he
      cases e2 : params py d with
      | error e =>
        rw [e2] at ih
        obtain ⟨p, us, h1, h2⟩ := ih.1 ⟨e, rfl⟩
        exact ⟨fun _ => ⟨p, us, by simp [h1], h2⟩, fun _ => ⟨e, rfl⟩⟩
      | ok l =>
        rw [e2] at ih
        constructor
        · rintro ⟨e, he⟩; cases he
        · rintro ⟨p, us, h1, h2⟩
          rcases List.mem_cons.1 h1 with h1 | h1
          · cases h1; exact absurd h2 hn
          · exact (ih.2 ⟨p, us, h1, h2⟩).imp (fun e he => by cases he)

/-- **C89**: if no printed value stands in the way, the signature can be computed exactly if python accepts the name of every printed option as that of a parameter. -/
theorem C89_computed_iff (py : Py) (hws : WsOk py.ws) (hef : ∀ l, py.enumFails l = false) (help : Str) :
    (∃ ps, signature py help = .ok ps) ↔
      ∀ w n rest, WordIn py.ws help w → Prints w n rest → py.refused (n.map (fun c => if c = '-' then '_' else c)) = false := by
  have hf := fails_iff py help
  simp only [hef, Bool.false_eq_true, and_false, or_false] at hf
  have hk : ∀ p, (∃ vs, (p, vs) ∈ collect (findall py.ws help)) ↔ ∃ w n rest, WordIn py.ws help w ∧ Prints w n rest ∧ p = n.map (fun c => if c = '-' then '_' else c) := by
    intro p
    have : (∃ vs, (p, vs) ∈ collect (findall py.ws help)) ↔ p ∈ (collect (findall py.ws help)).keys := by simp [Dict.keys]
    rw [this, mem_keys_collect]
    constructor
    · rintro ⟨⟨n, v⟩, hm, rfl⟩
      obtain ⟨w, hw, rest, hp, -⟩ := (mem_findall hws help n v).1 hm
      exact ⟨w, n, rest, hw, hp, rfl⟩
    · rintro ⟨w, n, rest, hw, hp, rfl⟩
      by_cases hv : rest.head? = some '=' ∨ rest.take 2 = c!"[="
      · exact ⟨(n, rest), (mem_findall hws help n rest).2 ⟨w, hw, rest, hp, .inl ⟨hv, rfl⟩⟩, rfl⟩
      · exact ⟨(n, []), (mem_findall hws help n []).2 ⟨w, hw, rest, hp, .inr ⟨fun e => hv (.inl e), fun e => hv (.inr e), rfl⟩⟩, rfl⟩
  constructor
  · rintro ⟨ps, h⟩ w n rest hw hp
    cases hr : py.refused (n.map (fun c => if c = '-' then '_' else c)) with
    | false => rfl
    | true =>
      obtain ⟨vs, hvs⟩ := (hk _).2 ⟨w, n, rest, hw, hp, rfl⟩
      obtain ⟨e, he⟩ := hf.2 ⟨_, vs, hvs, hr⟩
      rw [h] at he; cases he
  · intro h
    cases hs : signature py help with
    | ok ps => exact ⟨ps, rfl⟩
    | error e =>
      obtain ⟨p, vs, h1, h2⟩ := hf.1 ⟨e, hs⟩
      obtain ⟨w, n, rest, hw, hp, rfl⟩ := (hk p).1 ⟨vs, h1⟩
      rw [h w n rest hw hp] at h2; cases h2

/-- blank and newline -/
def blank (c : Char) : Bool := c == ' ' || c == '\n'
theorem blank_ok : WsOk blank := by
  intro c h
  simp only [blank, Bool.or_eq_true, beq_iff_eq] at h
  rcases h with rfl | rfl <;> decide

/-- A python that refuses `from`. -/
def exPy : Py := ⟨fun s => s.map Char.toUpper, id, blank, fun n => n == c!"from", fun _ => false⟩

/-- A typical text. -/
def exHelp : Str := c!"usage: ls [-l]\n  -a, --all  all\n  --color[=WHEN]\n  --sort=size\n  --sort=<word>\n  --block-size=<number>...\n"

example : signature exPy exHelp =
    .ok [⟨c!"all", true, [.bool]⟩, ⟨c!"color", true, [.bool, .enum [c!"WHEN"]]⟩, ⟨c!"sort", false, [.str, .enum [c!"size"]]⟩,
      ⟨c!"block_size", false, [.int]⟩] := by rfl

/-- C89 is false for options with digits, with underscores or of one letter: `--ipv4` is offered as `ipv`, which is passed to the program as
`--ipv`, an option it has not printed; `--x` is not offered. -/
theorem C89_refuted_digits : ∃ help ps, signature exPy help = .ok ps ∧ ps.map Param.name = [c!"ipv"] ∧
    WordIn blank help c!"--ipv4" ∧ WordIn blank help c!"--x" ∧ ¬ WordIn blank help c!"--ipv" ∧
    argList (σ := Unit) (fun s => .ok [s]) (fun _ _ => ([], ())) [.dict [(c!"ipv", .bool true)]] () = .ok ([.str c!"--ipv"], ()) := by
  refine ⟨c!"\n --ipv4 --x", [⟨c!"ipv", true, [.bool]⟩], rfl, rfl, ⟨c!"\n", ' ', c!" --x", rfl, rfl, by decide, by decide, .inr ⟨' ', _, rfl, rfl⟩⟩,
    ⟨c!"\n --ipv4", ' ', [], rfl, rfl, by decide, by decide, .inl rfl⟩, ?_, rfl⟩
  rintro ⟨a, c, r, h, hc, -, -, hr⟩
  have key : ∀ (a : Str), a.length ≤ 12 → ∀ c r, c!"\n --ipv4 --x" = a ++ c :: (c!"--ipv" ++ r) → r = c!"4 --x" := by
    intro a _ c r h
    match a, h with
    | [], h => simp at h
    | [_], h => simp at h; exact h.2.2.symm
    | [_, _], h => simp at h
    | [_, _, _], h => simp at h
    | [_, _, _, _], h => simp at h
    | [_, _, _, _, _], h => simp at h
    | [_, _, _, _, _, _], h => simp at h
    | [_, _, _, _, _, _, _], h => simp at h
    | _ :: _ :: _ :: _ :: _ :: _ :: _ :: _ :: a, h =>
      have := congrArg List.length h
      simp at this
      omega
  have hlen : a.length ≤ 12 := by
    have := congrArg List.length h
    simp at this
    omega
  have := key a hlen c r h
  rw [this] at hr
  rcases hr with hr | ⟨x, r', hr, hx⟩
  · cases hr
  · cases hr; cases hx

/-- C89 is false: one option with the name of a python keyword, and there is no signature at all. -/
theorem C89_refuted_keyword (py : Py) (hw : py.ws = blank) (h : py.refused c!"from" = true) :
    ∃ e, signature py c!" --from=x --verbose" = .error e := by
  have e : collect (findall blank c!" --from=x --verbose") = [(c!"from", [c!"x"]), (c!"verbose", [[]])] := by rfl
  rw [fails_iff, hw, e]
  exact ⟨_, _, List.mem_cons_self, .inl h⟩

example : exPy.ws = blank ∧ exPy.refused c!"from" = true := ⟨rfl, rfl⟩

/-- C89 is false: of two values that differ in case only, one is not offered. -/
theorem C89_refuted_case : signature exPy c!" --sort=size --sort=SIZE" = .ok [⟨c!"sort", false, [.enum [c!"SIZE"]]⟩] := by rfl

end Pieshell.Sgn
