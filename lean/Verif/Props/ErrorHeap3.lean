import Verif.Props.ErrorHeap2

/-!
# C101, continued: what a new field error says
-/
namespace Verif.Lib.ErrorHeap
open Verif Verif.Lib

/-! ## Vocabulary -/

/-- What a message object shows now. -/
def Msg.value (tr : Option (String → String)) (m : Msg) : Message := ⟨m.type, m.summary.str tr, m.info⟩

/-- What an argument of the constructor says now (`Lib/Error.lean` says what may be passed). -/
def Arg.value (w : World) : Arg → Item
  | .text t => .text (t.str w.tr)
  | .pair t i => .pair (t.str w.tr) i
  | .message m =>
    match w.msgs[m]? with
    | some x => .message (x.value w.tr)
    | none => .other
  | .error e =>
    match w.errs[e]? with
    | some ⟨some c, .list _ _ ms, _⟩ => .error c (ms.filterMap fun i => w.msgs[i]?.map (Msg.value w.tr))
    | _ => .other

/-! ## Lemmas: message objects exist -/

/-- The messages of the structure exist. -/
def Live (n : Nat) (b : Body) : Prop := ∀ m, Inside m b → m < n

/-- So do those of a value of a dict. -/
def LiveS (n : Nat) : Slot → Prop
  | .err _ => True
  | .other b => Live n b

/-- The messages of all errors and dicts exist. -/
structure AllLive (w : World) : Prop where
  errs : ∀ (e : Nat) (x : Err), w.errs[e]? = some x → Live w.msgs.length x.body
  dicts : ∀ (d : Nat) kvs k s, w.dicts[d]? = some kvs → (k, s) ∈ kvs → LiveS w.msgs.length s

theorem liveS_mono {n n' : Nat} (h : n ≤ n') : ∀ {s : Slot}, LiveS n s → LiveS n' s
  | .err _, _ => trivial
  | .other _, hs => fun m hm => Nat.lt_of_lt_of_le (hs m hm) h

theorem live_text {n s} : Live n (.text s) := fun _ h => nomatch h
theorem live_raw {n a} : Live n (.raw a) := fun _ h => nomatch h

/-- A step that adds no errors and dicts. -/
theorem allLive_frame {w w' : World} (hi : AllLive w) (hm : w.msgs.length ≤ w'.msgs.length)
    (he : ∀ (e : Nat) (x : Err), w'.errs[e]? = some x → ∃ y, w.errs[e]? = some y ∧ y.body = x.body)
    (hd : w'.dicts = w.dicts) : AllLive w' where
  errs e x hx m h := by
    obtain ⟨y, hy, hb⟩ := he e x hx
    exact Nat.lt_of_lt_of_le (hi.errs e y hy m (hb ▸ h)) hm
  dicts d kvs k s hk hs := liveS_mono hm (hi.dicts d kvs k s (hd ▸ hk) hs)

theorem given_live {w : World} (hi : AllLive w) {g : Given} {s : Slot} (hg : given w g = some s) : LiveS w.msgs.length s := by
  cases g with
  | err e => simp only [given] at hg; split at hg <;> cases hg; trivial
  | text t => cases hg; exact live_text
  | raw a => simp only [given] at hg; split at hg <;> cases hg; exact live_raw
  | errorsOf e =>
    simp only [given] at hg
    split at hg
    · rename_i id c ms r he
      cases hg
      intro m hm
      cases hm with | list h => exact hi.errs e _ he m (.list h)
    · rename_i b r _ he
      cases hg
      exact hi.errs e _ he
    · cases hg

theorem givenAll_live {w : World} (hi : AllLive w) : ∀ (l : List (Key × Given)) (acc d : List (Key × Slot)), givenAll w l acc = some d →
    (∀ k s, (k, s) ∈ acc → LiveS w.msgs.length s) → ∀ k s, (k, s) ∈ d → LiveS w.msgs.length s
  | [], acc, d, h, ha => by cases h; exact ha
  | (k, g) :: r, acc, d, h, ha => by
    unfold givenAll at h
    cases hg : given w g with
    | none => rw [hg] at h; cases h
    | some s =>
      rw [hg] at h
      refine givenAll_live hi r _ d h fun k' s' hm => ?_
      rcases mem_set hm with h1 | h1
      · cases h1; exact given_live hi hg
      · exact ha _ _ h1

theorem takeArg_live {cls tr errs msgs a msgs' ms} (h : takeArg cls tr errs msgs a = some (msgs', ms))
    (he : ∀ (e : Nat) (x : Err), errs[e]? = some x → Live msgs.length x.body) : ∀ m ∈ ms, m < msgs'.length := by
  intro m hm
  cases a with
  | text t => cases h; simp at hm ⊢; omega
  | pair t i => cases h; simp at hm ⊢; omega
  | message m' =>
    simp only [takeArg] at h
    split at h
    · cases h; simp at hm; omega
    · cases h
  | error e =>
    simp only [takeArg] at h
    split at h
    · rename_i hx
      split at h
      · cases h; exact he e _ hx m (.list hm)
      · cases h
    · cases h

theorem takeArgs_live {cls tr errs} : ∀ {args msgs msgs' ms}, takeArgs cls tr errs msgs args = some (msgs', ms) →
    (∀ (e : Nat) (x : Err), errs[e]? = some x → Live msgs.length x.body) → ∀ m ∈ ms, m < msgs'.length
  | [], msgs, msgs', ms, h, _ => by cases h; nofun
  | a :: r, msgs, msgs', ms, h, he => by
    unfold takeArgs at h
    cases ha : takeArg cls tr errs msgs a with
    | none => rw [ha] at h; cases h
    | some p =>
      obtain ⟨m1, l1⟩ := p
      rw [ha] at h
      simp only at h
      cases hr : takeArgs cls tr errs m1 r with
      | none => rw [hr] at h; cases h
      | some q =>
        obtain ⟨m2, l2⟩ := q
        rw [hr] at h
        cases h
        obtain ⟨n1, h1⟩ := takeArg_old ha
        obtain ⟨n2, h2⟩ := takeArgs_old hr
        intro m hm
        rw [List.mem_append] at hm
        rcases hm with hm | hm
        · have := takeArg_live ha he m hm
          rw [h2, List.length_append]; omega
        · refine takeArgs_live hr (fun e x hx k hk => ?_) m hm
          have := he e x hx k hk
          rw [h1, List.length_append]; omega

theorem retypeAll_length (t : FKind) : ∀ (ms : List Nat) (msgs : List Msg), (ms.foldl (retype t) msgs).length = msgs.length
  | [], _ => rfl
  | i :: r, msgs => by rw [List.foldl_cons, retypeAll_length t r]; simp [retype]

theorem step_live (h : Hash) (w : World) (ev : Event) (hi : AllLive w) : AllLive (step h w ev) := by
  cases ev with
  | translator tr => exact allLive_frame hi (Nat.le_refl _) (fun e x hx => ⟨x, hx, rfl⟩) rfl
  | message t i => exact allLive_frame hi (by simp [step]) (fun e x hx => ⟨x, hx, rfl⟩) rfl
  | edit m t i => exact allLive_frame hi (by simp [step]) (fun e x hx => ⟨x, hx, rfl⟩) rfl
  | newList xs => exact allLive_frame hi (Nat.le_refl _) (fun e x hx => ⟨x, hx, rfl⟩) rfl
  | setList a xs => exact allLive_frame hi (Nat.le_refl _) (fun e x hx => ⟨x, hx, rfl⟩) rfl
  | smash p v => exact allLive_frame hi (Nat.le_refl _) (fun e x hx => ⟨x, hx, rfl⟩) rfl
  | hash e =>
    simp only [step, hashErr]
    split
    · exact hi
    · exact allLive_frame hi (Nat.le_refl _) (fun e x hx => ⟨x, hx, rfl⟩) rfl
  | report e =>
    simp only [step, toPrimitive]
    split
    · exact hi
    · rename_i x hx
      split
      · exact hi
      · refine allLive_frame hi (Nat.le_refl _) (fun e' x' hx' => ?_) rfl
        simp only [List.getElem?_set] at hx'
        split at hx'
        · rename_i hee
          subst hee
          split at hx'
          · cases hx'; exact ⟨x, hx, rfl⟩
          · cases hx'
        · exact ⟨x', hx', rfl⟩
  | newDict kvs =>
    simp only [step]
    cases hg : givenAll w kvs [] with
    | none => exact hi
    | some d =>
      refine ⟨hi.errs, fun i kvs' k s hk hs => ?_⟩
      simp only [List.getElem?_append] at hk
      split at hk
      · exact hi.dicts i kvs' k s hk hs
      · cases hj : i - w.dicts.length with
        | zero => rw [hj] at hk; cases hk; exact givenAll_live hi kvs [] d hg (by nofun) k s hs
        | succ j => rw [hj] at hk; simp at hk
  | setDict d k g =>
    simp only [step]
    cases hg : given w g with
    | none => exact hi
    | some v =>
      refine ⟨hi.errs, fun i kvs' k' s hk hs => ?_⟩
      simp only [List.getElem?_modify] at hk
      cases hw : w.dicts[i]? with
      | none => rw [hw] at hk; cases hk
      | some kvs =>
        rw [hw] at hk
        simp only [Option.map_eq_map, Option.map_some, Option.some.injEq] at hk
        split at hk
        · rw [← hk] at hs
          rcases mem_set hs with h1 | h1
          · cases h1; exact given_live hi hg
          · exact hi.dicts i kvs k' s hw h1
        · rw [← hk] at hs; exact hi.dicts i kvs k' s hw hs
  | field cls args =>
    simp only [step, newField]
    split
    · exact hi
    · cases ht : takeArgs cls w.tr w.errs w.msgs args with
      | none => exact hi
      | some p =>
        obtain ⟨msgs, ms⟩ := p
        obtain ⟨n, hn⟩ := takeArgs_old ht
        have hl : w.msgs.length ≤ (ms.foldl (retype (FKind.msgType cls)) msgs).length := by
          rw [retypeAll_length, hn, List.length_append]; omega
        refine ⟨fun e x hx => ?_, fun i kvs' k s hk hs => liveS_mono hl (hi.dicts i kvs' k s hk hs)⟩
        simp only [List.getElem?_append] at hx
        split at hx
        · exact fun m hm => Nat.lt_of_lt_of_le (hi.errs e x hx m hm) hl
        · cases hj : e - w.errs.length with
          | zero =>
            rw [hj] at hx
            cases hx
            intro m hm
            cases hm with
            | list hm => simp only [retypeAll_length]; exact takeArgs_live ht hi.errs m hm
          | succ j => rw [hj] at hx; simp at hx
  | compound d =>
    simp only [step, newCompound]
    cases hd : w.dicts[d]? with
    | none => exact hi
    | some kvs =>
      have hheld : ∀ s, LiveS w.msgs.length s → Live w.msgs.length (held w.errs s) := by
        intro s hs
        cases s with
        | other b => exact hs
        | err e =>
          simp only [held]
          cases he : w.errs[e]? with
          | none => exact live_text
          | some x => exact hi.errs e x he
      have hsettle : ∀ s, LiveS w.msgs.length s → LiveS w.msgs.length (settle w.errs s) := by
        intro s hs
        cases s with
        | other b => exact hs
        | err e =>
          simp only [settle]
          split
          · rename_i he; exact hi.errs e _ he
          · trivial
      refine ⟨fun e x hx => ?_, fun i kvs' k s hk hs => ?_⟩
      · simp only [List.getElem?_append] at hx
        split at hx
        · exact hi.errs e x hx
        · cases hj : e - w.errs.length with
          | zero =>
            rw [hj] at hx
            cases hx
            intro m hm
            cases hm with
            | node hk hb =>
              rw [List.mem_map] at hk
              obtain ⟨⟨k', s⟩, hks, hke⟩ := hk
              simp only [Prod.mk.injEq] at hke
              rw [← hke.2] at hb
              exact hheld s (hi.dicts d kvs k' s hd hks) m hb
          | succ j => rw [hj] at hx; simp at hx
      · simp only [List.getElem?_set] at hk
        split at hk
        · split at hk
          · cases hk
            rw [List.mem_map] at hs
            obtain ⟨⟨k', s'⟩, hks, hke⟩ := hs
            simp only [Prod.mk.injEq] at hke
            rw [← hke.2]
            exact hsettle s' (hi.dicts d kvs k' s' hd hks)
          · cases hk
        · exact hi.dicts i kvs' k s hk hs

theorem run_live (h : Hash) (es : List Event) : ∀ (w : World), AllLive w → AllLive (run h w es) := by
  induction es with
  | nil => intro w hi; exact hi
  | cons ev es ih => intro w hi; exact ih _ (step_live h w ev hi)

theorem empty_live : AllLive World.empty :=
  ⟨fun e x h => by simp [World.empty] at h, fun d kvs k s h => by simp [World.empty] at h⟩

/-! ## Lemmas: construction -/

/-- What the message objects `ms` show, if the objects are `msgs`. -/
def showAll (tr : Option (String → String)) (msgs : List Msg) (ms : List Nat) : List Message :=
  ms.filterMap fun i => msgs[i]?.map (Msg.value tr)

theorem showAll_grow (tr : Option (String → String)) (msgs new : List Msg) (ms : List Nat) (h : ∀ m ∈ ms, m < msgs.length) :
    showAll tr (msgs ++ new) ms = showAll tr msgs ms := by
  unfold showAll
  apply List.filterMap_congr
  intro i hi
  rw [List.getElem?_append_left (h i hi)]

/-- One argument. -/
theorem takeArg_value {w : World} {cls : FKind} (hi : AllLive w) (new : List Msg) (a : Arg)
    (ha : ∀ m, a = .message m → m < w.msgs.length) :
    match itemMessages cls (a.value w) with
    | none => takeArg cls w.tr w.errs (w.msgs ++ new) a = none
    | some l => ∃ new' ms, takeArg cls w.tr w.errs (w.msgs ++ new) a = some (w.msgs ++ new ++ new', ms) ∧
        showAll w.tr (w.msgs ++ new ++ new') ms = l := by
  cases a with
  | text t =>
    simp only [Arg.value, itemMessages]
    exact ⟨_, _, rfl, by simp [showAll, Msg.value, Txt.str]⟩
  | pair t i =>
    simp only [Arg.value, itemMessages]
    exact ⟨_, _, rfl, by simp [showAll, Msg.value]⟩
  | message m =>
    have hm := ha m rfl
    simp only [Arg.value]
    rw [List.getElem?_eq_getElem hm]
    simp only [itemMessages]
    refine ⟨[], [m], ?_, ?_⟩
    · simp only [takeArg, List.append_nil]
      rw [if_pos (by rw [List.length_append]; omega)]
    · rw [List.append_nil, showAll_grow _ _ _ _ (by simpa using hm)]
      simp [showAll, List.getElem?_eq_getElem hm]
  | error e =>
    simp only [Arg.value, takeArg]
    cases he : w.errs[e]? with
    | none => simp only [itemMessages]
    | some x =>
      obtain ⟨c, b, r⟩ := x
      have hl := hi.errs e _ he
      cases c with
      | none => simp only [itemMessages]
      | some c =>
        cases b with
        | text s => simp only [itemMessages]
        | raw a => simp only [itemMessages]
        | node id kvs => simp only [itemMessages]
        | list id c' ms =>
          simp only [itemMessages]
          cases FKind.isA c cls with
          | false => simp
          | true =>
            simp only [if_true]
            refine ⟨[], ms, by rw [List.append_nil], ?_⟩
            rw [List.append_nil, showAll_grow _ _ _ _ fun m hm => hl m (.list hm)]
            rfl

/-- All of them. -/
theorem takeArgs_value {w : World} {cls : FKind} (hi : AllLive w) : ∀ (args : List Arg) (new : List Msg),
    (∀ m, .message m ∈ args → m < w.msgs.length) →
    match allMessages cls (args.map (Arg.value w)) with
    | none => takeArgs cls w.tr w.errs (w.msgs ++ new) args = none
    | some l => ∃ new' ms, takeArgs cls w.tr w.errs (w.msgs ++ new) args = some (w.msgs ++ new ++ new', ms) ∧
        (∀ m ∈ ms, m < (w.msgs ++ new ++ new').length) ∧ showAll w.tr (w.msgs ++ new ++ new') ms = l
  | [], new, _ => ⟨[], [], by simp [takeArgs], by simp, rfl⟩
  | a :: r, new, ha => by
    have h1 := takeArg_value (cls := cls) hi new a fun m hm => ha m (hm ▸ List.mem_cons_self)
    simp only [List.map_cons, allMessages, takeArgs]
    cases hm : itemMessages cls (a.value w) with
    | none =>
      rw [hm] at h1
      simp only at h1 ⊢
      rw [h1]
    | some l =>
      rw [hm] at h1
      obtain ⟨n1, m1, h1, h1'⟩ := h1
      have h2 := takeArgs_value (cls := cls) hi r (new ++ n1) fun m hm => ha m (List.mem_cons_of_mem _ hm)
      rw [← List.append_assoc] at h2
      cases hr : allMessages cls (r.map (Arg.value w)) with
      | none =>
        rw [hr] at h2
        simp only at h2 ⊢
        rw [h1]
        simp only
        rw [h2]
      | some l' =>
        rw [hr] at h2
        obtain ⟨n2, m2, h2, h2', h2''⟩ := h2
        have hl : ∀ m ∈ m1, m < (w.msgs ++ new ++ n1).length := takeArg_live h1 fun e x hx m hm => by
          have := hi.errs e x hx m hm
          rw [List.length_append]; omega
        simp only
        refine ⟨n1 ++ n2, m1 ++ m2, ?_, ?_, ?_⟩
        · rw [h1]
          simp only
          rw [h2]
          simp only [List.append_assoc]
        · intro m hm
          rw [← List.append_assoc]
          rw [List.mem_append] at hm
          rcases hm with hm | hm
          · have := hl m hm
            rw [List.length_append]; omega
          · exact h2' m hm
        · rw [← List.append_assoc]
          unfold showAll
          rw [List.filterMap_append]
          exact congr (congrArg _ ((showAll_grow _ _ _ _ hl).trans h1')) h2''

theorem showAll_retype (tr : Option (String → String)) (t : FKind) (msgs : List Msg) (ms all : List Nat) (h : ∀ m ∈ ms, m ∈ all) :
    showAll tr (all.foldl (retype t) msgs) ms = (showAll tr msgs ms).map fun m => { m with type := some t } := by
  unfold showAll
  rw [List.map_filterMap]
  apply List.filterMap_congr
  intro i hi
  rw [retypeAll_get, if_pos (h i hi)]
  cases msgs[i]? <;> rfl

/-! ## The theorem -/

/-- In every state a program can reach, `ConversionError(items)` etc. fails exactly if the items, read as values, are refused by
`C69_field_error` (an error of a class that is not the new one's, for example), or if there are none; otherwise the new error holds, at this
moment, exactly the messages which `C69_field_error` says, with lazy texts read in the language registered now. -/
theorem C101_constructed (h : Hash) (es : List Event) (cls : FKind) (args : List Arg) :
    let w := run h World.empty es
    (∀ m, .message m ∈ args → m < w.msgs.length) →
    ((newField w cls args).2 = none ↔ args = [] ∨ mkField cls (args.map (Arg.value w)) = none) ∧
    ((newField w cls args).2 = none → (newField w cls args).1 = w) ∧
    (∀ e, (newField w cls args).2 = some e → ∃ id ms,
      (newField w cls args).1.errs[e]? = some ⟨some cls, .list id (some cls) ms, none⟩ ∧
      (∀ m ∈ ms, m < (newField w cls args).1.msgs.length) ∧
      some (ms.filterMap fun i => (newField w cls args).1.msgs[i]?.map (Msg.value w.tr)) = mkField cls (args.map (Arg.value w))) := by
  intro w ha
  have hi : AllLive w := run_live h es _ empty_live
  clear_value w
  have hv := takeArgs_value (cls := cls) hi args [] ha
  rw [List.append_nil] at hv
  unfold newField mkField
  by_cases hne : args = []
  · rw [if_pos hne]
    exact ⟨by simp [hne], fun _ => rfl, nofun⟩
  · rw [if_neg hne]
    cases hm : allMessages cls (args.map (Arg.value w)) with
    | none =>
      rw [hm] at hv
      simp only at hv
      rw [hv]
      exact ⟨by simp, fun _ => rfl, nofun⟩
    | some l =>
      rw [hm] at hv
      obtain ⟨new, ms, h1, h2, h3⟩ := hv
      rw [h1]
      refine ⟨by simp [hne], nofun, fun e he => ?_⟩
      cases he
      refine ⟨w.next, ms, by simp, fun m hm => by simp only [retypeAll_length]; exact h2 m hm, ?_⟩
      simp only [Option.map_some, Option.some.injEq]
      rw [← h3]
      exact showAll_retype _ _ _ _ _ fun _ h => h

/-! ### The hypotheses are met -/

/-- An error of a stricter class, a message and a lazy text are taken over; the reverse direction is refused. -/
example (h : Hash) :
    let w := run h World.empty [.translator (some fun s => s ++ "!"), .message (.plain "m") none, .field .stop [.text (.plain "s")]]
    (newField w .valid [.error 0, .message 0, .text (.lazy 7 "l")]).2 = some 1 ∧
    (newField w .conv [.error 0]).2 = none ∧
    mkField .valid ([.error 0, .message 0, .text (.lazy 7 "l")].map (Arg.value w)) =
      some [⟨some .valid, "s", none⟩, ⟨some .valid, "m", none⟩, ⟨some .valid, "l!", none⟩] := by
  refine ⟨rfl, rfl, ?_⟩
  rfl

end Verif.Lib.ErrorHeap
