import Verif.Props.ErrorHeap

/-!
# C101, continued: equal errors have equal hashes, what compound errors take over, what can change
-/
namespace Verif.Lib.ErrorHeap
open Verif Verif.Lib

/-! ## Vocabulary -/

/-- The event does not write to a message and does not build an error from messages of the other kind. -/
def Careful (w : World) : Event → Prop
  | .edit _ _ _ => False
  | .field cls args => ∀ m x, Shares w args m → w.msgs[m]? = some x → x.type = none ∨ x.type = some (FKind.msgType cls)
  | _ => True

/-- No event of the history does. -/
def CarefulRun (h : Hash) : World → List Event → Prop
  | _, [] => True
  | w, ev :: r => Careful w ev ∧ CarefulRun h (step h w ev) r

/-- The hash functions for errors as values (`Lib/Error.lean`). -/
def Hash.values (h : Hash) : Hashes := ⟨h.key, h.text, fun m => h.message m.type (.plain m.summary) m.info⟩

/-! ## Lemmas: hashes without a cache -/

mutual
/-- The hash of a structure without the caches. -/
def hashP (h : Hash) (w : World) : Body → Option Nat
  | .list _ _ ms => some (hashMsgs h w ms)
  | .text s => some (h.text s)
  | .raw _ => none
  | .node _ kvs => hashPE h w 0 kvs
/-- The loop over the items. -/
def hashPE (h : Hash) (w : World) (a : Nat) : List (Key × Body) → Option Nat
  | [] => some a
  | (k, b) :: r =>
    match hashP h w b with
    | some v => hashPE h w ((a ^^^ h.key k) ^^^ v) r
    | none => none
end

/-- A structure made of frozen objects that exist: they are registered in `reg`, their messages have a type. -/
inductive Known (w : World) (reg : Nat → Body) : Body → Prop
  | list {id c ms} : id < w.next → reg id = .list id none ms → (∀ m ∈ ms, ∃ x t, w.msgs[m]? = some x ∧ x.type = some t) →
      Known w reg (.list id c ms)
  | text {s} : Known w reg (.text s)
  | raw {a} : Known w reg (.raw a)
  | node {id kvs} : id < w.next → reg id = .node id kvs → Dict.Nodup kvs → (∀ k b, (k, b) ∈ kvs → Known w reg b) →
      Known w reg (.node id kvs)

/-- A value of a dict of the caller. -/
def KnownS (w : World) (reg : Nat → Body) : Slot → Prop
  | .err e => e < w.errs.length
  | .other b => Known w reg b

/-- Kept hashes are right. -/
def CacheOk (h : Hash) (w : World) (reg : Nat → Body) (c : Nat → Option Nat) : Prop :=
  ∀ i v, c i = some v → i < w.next ∧ Known w reg (reg i) ∧ hashP h w (reg i) = some v

/-- The invariant of careful histories. -/
structure Inv (h : Hash) (w : World) (reg : Nat → Body) : Prop where
  errs : ∀ x ∈ w.errs, Known w reg x.body
  dicts : ∀ d ∈ w.dicts, Dict.Nodup d ∧ ∀ k s, (k, s) ∈ d → KnownS w reg s
  hashes : CacheOk h w reg w.hashes

/-- Messages with a type are the same in both. -/
def TypedKept (w w' : World) : Prop :=
  ∀ (m : Nat) (x : Msg) (t : FKind), w.msgs[m]? = some x → x.type = some t → w'.msgs[m]? = some x

theorem known_mono {w w' : World} {reg reg' : Nat → Body} (hm : TypedKept w w') (hn : w.next ≤ w'.next)
    (hr : ∀ i, i < w.next → reg' i = reg i) {b : Body} (hb : Known w reg b) : Known w' reg' b := by
  induction hb with
  | list h1 h2 h3 =>
    refine .list (by omega) (by rw [hr _ h1, h2]) fun m hmm => ?_
    obtain ⟨x, t, hx, ht⟩ := h3 m hmm
    exact ⟨x, t, hm m x t hx ht, ht⟩
  | text => exact .text
  | raw => exact .raw
  | node h1 h2 h3 _ ih => exact .node (by omega) (by rw [hr _ h1, h2]) h3 ih

theorem hashMsgs_kept (h : Hash) {w w' : World} (hm : TypedKept w w') (ms : List Nat)
    (hk : ∀ m ∈ ms, ∃ x t, w.msgs[m]? = some x ∧ x.type = some t) : hashMsgs h w' ms = hashMsgs h w ms := by
  unfold hashMsgs
  generalize 0 = a
  induction ms generalizing a with
  | nil => rfl
  | cons i r ih =>
    obtain ⟨x, t, hx, ht⟩ := hk i List.mem_cons_self
    rw [List.foldl_cons, List.foldl_cons, hm i x t hx ht, hx]
    exact ih (fun m hm => hk m (List.mem_cons_of_mem _ hm)) _

mutual
theorem hashP_kept (h : Hash) {w w' : World} {reg : Nat → Body} (hm : TypedKept w w') : ∀ (b : Body), Known w reg b →
    hashP h w' b = hashP h w b
  | .list id c ms, hb => by
    cases hb with
    | list _ _ h3 => unfold hashP; rw [hashMsgs_kept h hm ms h3]
  | .text s, _ => by unfold hashP; rfl
  | .raw a, _ => by unfold hashP; rfl
  | .node id kvs, hb => by
    cases hb with
    | node _ _ _ h4 => unfold hashP; exact hashPE_kept h hm kvs 0 h4
theorem hashPE_kept (h : Hash) {w w' : World} {reg : Nat → Body} (hm : TypedKept w w') : ∀ (kvs : List (Key × Body)) (a : Nat),
    (∀ k b, (k, b) ∈ kvs → Known w reg b) → hashPE h w' a kvs = hashPE h w a kvs
  | [], a, _ => by unfold hashPE; rfl
  | (k, b) :: r, a, hk => by
    unfold hashPE
    rw [hashP_kept h hm b (hk k b List.mem_cons_self)]
    cases hashP h w b with
    | none => rfl
    | some v => exact hashPE_kept h hm r _ fun k b hb => hk k b (List.mem_cons_of_mem _ hb)
end

theorem cacheOk_remember {h : Hash} {w : World} {reg : Nat → Body} {c : Nat → Option Nat} (hc : CacheOk h w reg c) {id v : Nat}
    (h1 : id < w.next) (h2 : Known w reg (reg id)) (h3 : hashP h w (reg id) = some v) : CacheOk h w reg (remember c id v) := by
  intro i u hi
  simp only [remember] at hi
  split at hi
  · rename_i he; subst he; cases hi; exact ⟨h1, h2, h3⟩
  · exact hc i u hi

mutual
theorem hashB_ok (h : Hash) (w : World) (reg : Nat → Body) : ∀ (b : Body) (c : Nat → Option Nat), Known w reg b → CacheOk h w reg c →
    (hashB h w c b).2 = hashP h w b ∧ CacheOk h w reg (hashB h w c b).1
  | .list id cl ms, c, hb, hc => by
    cases hb with
    | list h1 h2 h3 =>
      unfold hashB
      cases hv : c id with
      | some v =>
        obtain ⟨_, _, h6⟩ := hc id v hv
        rw [h2] at h6
        exact ⟨by rw [← h6]; unfold hashP; rfl, hc⟩
      | none =>
        refine ⟨by unfold hashP; rfl, cacheOk_remember hc h1 ?_ ?_⟩
        · rw [h2]; exact .list h1 h2 h3
        · rw [h2]; unfold hashP; rfl
  | .text s, c, _, hc => by unfold hashB hashP; exact ⟨rfl, hc⟩
  | .raw a, c, _, hc => by unfold hashB hashP; exact ⟨rfl, hc⟩
  | .node id kvs, c, hb, hc => by
    cases hb with
    | node h1 h2 h3 h4 =>
      unfold hashB
      cases hv : c id with
      | some v =>
        obtain ⟨_, _, h6⟩ := hc id v hv
        rw [h2] at h6
        exact ⟨h6.symm, hc⟩
      | none =>
        obtain ⟨h5, h6⟩ := hashE_ok h w reg kvs c 0 h4 hc
        simp only
        cases hr : hashE h w c 0 kvs with
        | mk c' r =>
          rw [hr] at h5 h6
          cases r with
          | none => exact ⟨by unfold hashP; exact h5, h6⟩
          | some v =>
            refine ⟨by unfold hashP; exact h5, cacheOk_remember h6 h1 ?_ ?_⟩
            · rw [h2]; exact .node h1 h2 h3 h4
            · rw [h2]; unfold hashP; exact h5.symm
theorem hashE_ok (h : Hash) (w : World) (reg : Nat → Body) : ∀ (kvs : List (Key × Body)) (c : Nat → Option Nat) (a : Nat),
    (∀ k b, (k, b) ∈ kvs → Known w reg b) → CacheOk h w reg c →
    (hashE h w c a kvs).2 = hashPE h w a kvs ∧ CacheOk h w reg (hashE h w c a kvs).1
  | [], c, a, _, hc => by unfold hashE hashPE; exact ⟨rfl, hc⟩
  | (k, b) :: r, c, a, hk, hc => by
    unfold hashE hashPE
    obtain ⟨h1, h2⟩ := hashB_ok h w reg b c (hk k b List.mem_cons_self) hc
    cases hr : hashB h w c b with
    | mk c' o =>
      rw [hr] at h1 h2
      simp only at h1
      rw [← h1]
      cases o with
      | none => exact ⟨rfl, h2⟩
      | some v => exact hashE_ok h w reg r c' _ (fun k b hb => hk k b (List.mem_cons_of_mem _ hb)) h2
end

/-! ## Lemmas: the invariant -/

theorem step_typed (h : Hash) (w : World) (ev : Event) (hc : Careful w ev) : TypedKept w (step h w ev) := by
  intro m x t hx ht
  obtain ⟨y, hy, h1, h2⟩ := step_msg h w ev m x hx
  obtain ⟨h3, h4⟩ := h1 fun t i he => by subst he; exact hc
  have h5 := h2 fun cls args he hs => by
    subst he
    rcases hc m x hs hx with h | h
    · rw [ht] at h; cases h
    · exact h
  rw [hy]
  cases y; cases x
  simp only at h3 h4 h5
  rw [h3, h4, h5]

/-- Registering a new frozen object. -/
def register (reg : Nat → Body) (id : Nat) (b : Body) : Nat → Body := fun i => if i = id then b else reg i

theorem register_old (reg : Nat → Body) (id : Nat) (b : Body) (i : Nat) (hi : i < id) : register reg id b i = reg i := by
  unfold register; rw [if_neg (by omega)]

theorem register_new (reg : Nat → Body) (id : Nat) (b : Body) : register reg id b id = b := by
  unfold register; rw [if_pos rfl]

theorem cacheOk_mono {h : Hash} {w w' : World} {reg reg' : Nat → Body} (hm : TypedKept w w') (hn : w.next ≤ w'.next)
    (hr : ∀ i, i < w.next → reg' i = reg i) {c : Nat → Option Nat} (hc : CacheOk h w reg c) : CacheOk h w' reg' c := by
  intro i v hi
  obtain ⟨h1, h2, h3⟩ := hc i v hi
  rw [hr i h1]
  exact ⟨by omega, known_mono hm hn hr h2, by rw [hashP_kept h hm _ h2, h3]⟩

theorem knownS_mono {w w' : World} {reg reg' : Nat → Body} (hm : TypedKept w w') (hn : w.next ≤ w'.next)
    (hr : ∀ i, i < w.next → reg' i = reg i) (he : w.errs.length ≤ w'.errs.length) {s : Slot} (hs : KnownS w reg s) :
    KnownS w' reg' s := by
  cases s with
  | err e => exact Nat.lt_of_lt_of_le hs he
  | other b => exact known_mono hm hn hr hs

/-- Events that leave errors, dicts and hashes alone keep the invariant. -/
theorem inv_frame {h : Hash} {w w' : World} {reg : Nat → Body} (hi : Inv h w reg) (hm : TypedKept w w') (hn : w'.next = w.next)
    (he : w'.errs = w.errs) (hd : w'.dicts = w.dicts) (hh : w'.hashes = w.hashes) : Inv h w' reg where
  errs := by rw [he]; exact fun x hx => known_mono hm (by omega) (fun _ _ => rfl) (hi.errs x hx)
  dicts := by
    rw [hd]
    exact fun d hd => ⟨(hi.dicts d hd).1, fun k s hs => knownS_mono hm (by omega) (fun _ _ => rfl) (Nat.le_of_eq (by rw [he])) ((hi.dicts d hd).2 k s hs)⟩
  hashes := by rw [hh]; exact cacheOk_mono hm (by omega) (fun _ _ => rfl) hi.hashes

theorem given_known {h : Hash} {w : World} {reg : Nat → Body} (hi : Inv h w reg) {g : Given} {s : Slot} (hg : given w g = some s) :
    KnownS w reg s := by
  cases g with
  | err e =>
    simp only [given] at hg
    split at hg
    · cases hg; assumption
    · cases hg
  | text t => simp only [given, Option.some.injEq] at hg; subst hg; exact .text
  | raw a =>
    simp only [given] at hg
    split at hg
    · cases hg; exact .raw
    · cases hg
  | errorsOf e =>
    simp only [given] at hg
    split at hg
    · rename_i c id c' ms r he
      cases hg
      have := hi.errs _ (List.mem_of_getElem? he)
      cases this with
      | list h1 h2 h3 => exact .list h1 h2 h3
    · rename_i c b r _ he
      cases hg
      exact hi.errs _ (List.mem_of_getElem? he)
    · cases hg

theorem mem_set {d : List (Key × Slot)} {k k' : Key} {s s' : Slot} (hm : (k', s') ∈ Dict.set d k s) : (k', s') = (k, s) ∨ (k', s') ∈ d := by
  induction d with
  | nil => simp only [Dict.set, List.mem_singleton] at hm; exact .inl hm
  | cons x d ih =>
    obtain ⟨k0, s0⟩ := x
    simp only [Dict.set] at hm
    split at hm
    · rcases List.mem_cons.1 hm with h | h
      · rename_i he; left; simp_all
      · exact .inr (List.mem_cons_of_mem _ h)
    · rcases List.mem_cons.1 hm with h | h
      · exact .inr (by rw [h]; exact List.mem_cons_self)
      · rcases ih h with h | h
        · exact .inl h
        · exact .inr (List.mem_cons_of_mem _ h)

/-- Events that only touch dicts and hashes. -/
theorem inv_dicts {h : Hash} {w w' : World} {reg : Nat → Body} (hi : Inv h w reg) (hm : w'.msgs = w.msgs) (hn : w'.next = w.next)
    (he : w'.errs = w.errs) (hd : ∀ d ∈ w'.dicts, Dict.Nodup d ∧ ∀ k s, (k, s) ∈ d → KnownS w reg s) (hh : CacheOk h w reg w'.hashes) :
    Inv h w' reg := by
  have hm' : TypedKept w w' := fun m x t h _ => by rw [hm]; exact h
  refine ⟨?_, ?_, ?_⟩
  · rw [he]; exact fun x hx => known_mono hm' (by omega) (fun _ _ => rfl) (hi.errs x hx)
  · exact fun d hd' => ⟨(hd d hd').1, fun k s hs => knownS_mono hm' (by omega) (fun _ _ => rfl) (Nat.le_of_eq (by rw [he])) ((hd d hd').2 k s hs)⟩
  · exact cacheOk_mono hm' (by omega) (fun _ _ => rfl) hh

/-- Events that only touch errors. -/
theorem inv_errs {h : Hash} {w w' : World} {reg : Nat → Body} (hi : Inv h w reg) (hm : w'.msgs = w.msgs) (hn : w'.next = w.next)
    (he : ∀ x ∈ w'.errs, Known w reg x.body) (hl : w.errs.length ≤ w'.errs.length) (hd : w'.dicts = w.dicts) (hh : w'.hashes = w.hashes) :
    Inv h w' reg := by
  have hm' : TypedKept w w' := fun m x t h _ => by rw [hm]; exact h
  refine ⟨?_, ?_, ?_⟩
  · exact fun x hx => known_mono hm' (by omega) (fun _ _ => rfl) (he x hx)
  · rw [hd]; exact fun d hd' => ⟨(hi.dicts d hd').1, fun k s hs => knownS_mono hm' (by omega) (fun _ _ => rfl) hl ((hi.dicts d hd').2 k s hs)⟩
  · rw [hh]; exact cacheOk_mono hm' (by omega) (fun _ _ => rfl) hi.hashes

theorem set_known {w : World} {reg : Nat → Body} {d : List (Key × Slot)} {k : Key} {s : Slot} (hs : KnownS w reg s)
    (hd : Dict.Nodup d ∧ ∀ k s, (k, s) ∈ d → KnownS w reg s) :
    Dict.Nodup (Dict.set d k s) ∧ ∀ k' s', (k', s') ∈ Dict.set d k s → KnownS w reg s' := by
  refine ⟨Dict.nodup_set hd.1 k s, fun k' s' hm => ?_⟩
  have := mem_set hm
  rcases this with h | h
  · cases h; exact hs
  · exact hd.2 _ _ h

theorem givenAll_known {h : Hash} {w : World} {reg : Nat → Body} (hi : Inv h w reg) : ∀ (l : List (Key × Given)) (acc d),
    givenAll w l acc = some d → (Dict.Nodup acc ∧ ∀ k s, (k, s) ∈ acc → KnownS w reg s) →
    Dict.Nodup d ∧ ∀ k s, (k, s) ∈ d → KnownS w reg s
  | [], acc, d, hg, ha => by simp only [givenAll, Option.some.injEq] at hg; subst hg; exact ha
  | (k, g) :: r, acc, d, hg, ha => by
    unfold givenAll at hg
    cases hs : given w g with
    | none => rw [hs] at hg; cases hg
    | some s => rw [hs] at hg; exact givenAll_known hi r _ d hg (set_known (given_known hi hs) ha)

theorem held_known {h : Hash} {w : World} {reg : Nat → Body} (hi : Inv h w reg) {s : Slot} (hs : KnownS w reg s) :
    Known w reg (held w.errs s) := by
  cases s with
  | err e =>
    simp only [held]
    split
    · rename_i x hx; exact hi.errs _ (List.mem_of_getElem? hx)
    · exact .text
  | other b => exact hs

theorem settle_known {h : Hash} {w : World} {reg : Nat → Body} (hi : Inv h w reg) {s : Slot} (hs : KnownS w reg s) :
    KnownS w reg (settle w.errs s) := by
  cases s with
  | err e =>
    simp only [settle]
    split
    · rename_i b r hx; exact hi.errs _ (List.mem_of_getElem? hx)
    · exact hs
  | other b => exact hs

theorem takeArgs_valid {h : Hash} {w : World} {reg : Nat → Body} (hi : Inv h w reg) {cls : FKind} : ∀ {args msgs msgs' ms},
    takeArgs cls w.tr w.errs msgs args = some (msgs', ms) → w.msgs.length ≤ msgs.length → ∀ m ∈ ms, m < msgs'.length
  | [], msgs, msgs', ms, h, _, m, hm => by
    simp only [takeArgs, Option.some.injEq, Prod.mk.injEq] at h; rw [← h.2] at hm; cases hm
  | a :: r, msgs, msgs', ms, h, hl, m, hm => by
    unfold takeArgs at h
    cases ha : takeArg cls w.tr w.errs msgs a with
    | none => rw [ha] at h; cases h
    | some p =>
      obtain ⟨m1, l1⟩ := p
      rw [ha] at h
      simp only at h
      cases hr : takeArgs cls w.tr w.errs m1 r with
      | none => rw [hr] at h; cases h
      | some q =>
        obtain ⟨m2, l2⟩ := q
        rw [hr] at h
        simp only [Option.some.injEq, Prod.mk.injEq] at h
        obtain ⟨n1, h1⟩ := takeArg_old ha
        obtain ⟨n2, h2⟩ := takeArgs_old hr
        rw [← h.2, List.mem_append] at hm
        rw [← h.1]
        have hl1 : msgs.length ≤ m1.length := by rw [h1, List.length_append]; omega
        have hl2 : m1.length ≤ m2.length := by rw [h2, List.length_append]; omega
        rcases hm with hm | hm
        · cases a with
          | text t =>
            simp only [takeArg, Option.some.injEq, Prod.mk.injEq] at ha; rw [← ha.2] at hm
            simp only [List.mem_singleton] at hm
            have : m1.length = msgs.length + 1 := by rw [← ha.1]; simp
            omega
          | pair t i =>
            simp only [takeArg, Option.some.injEq, Prod.mk.injEq] at ha; rw [← ha.2] at hm
            simp only [List.mem_singleton] at hm
            have : m1.length = msgs.length + 1 := by rw [← ha.1]; simp
            omega
          | message m' =>
            simp only [takeArg] at ha
            split at ha
            · simp only [Option.some.injEq, Prod.mk.injEq] at ha; rw [← ha.2] at hm
              simp only [List.mem_singleton] at hm; omega
            · cases ha
          | error e =>
            simp only [takeArg] at ha
            split at ha
            · rename_i c id c' ms0 r he
              split at ha
              · simp only [Option.some.injEq, Prod.mk.injEq] at ha; rw [← ha.2] at hm
                have := hi.errs _ (List.mem_of_getElem? he)
                cases this with
                | list _ _ h3 =>
                  obtain ⟨x, t, hx, _⟩ := h3 m hm
                  rcases List.getElem?_eq_some_iff.1 hx with ⟨h, _⟩
                  omega
              · cases ha
            · cases ha
        · exact takeArgs_valid hi hr (by omega) m hm

theorem step_inv (h : Hash) (w : World) (ev : Event) (hc : Careful w ev) (reg : Nat → Body) (hi : Inv h w reg) :
    ∃ reg', Inv h (step h w ev) reg' := by
  have hm := step_typed h w ev hc
  cases ev with
  | translator tr => exact ⟨reg, inv_frame hi hm rfl rfl rfl rfl⟩
  | message t i => exact ⟨reg, inv_frame hi hm rfl rfl rfl rfl⟩
  | edit m t i => exact hc.elim
  | newList xs => exact ⟨reg, inv_frame hi hm rfl rfl rfl rfl⟩
  | setList a xs => exact ⟨reg, inv_frame hi hm rfl rfl rfl rfl⟩
  | newDict kvs =>
    refine ⟨reg, ?_⟩
    simp only [step]
    cases hg : givenAll w kvs [] with
    | none => exact hi
    | some d =>
      have hk := givenAll_known hi kvs [] d hg ⟨List.nodup_nil, fun _ _ h => by cases h⟩
      refine inv_dicts hi rfl rfl rfl (fun d' hd' => ?_) hi.hashes
      rcases List.mem_append.1 hd' with h1 | h1
      · exact hi.dicts d' h1
      · rw [List.mem_singleton.1 h1]; exact hk
  | setDict d k g =>
    refine ⟨reg, ?_⟩
    simp only [step]
    cases hg : given w g with
    | none => exact hi
    | some s =>
      refine inv_dicts hi rfl rfl rfl (fun d' hd' => ?_) hi.hashes
      obtain ⟨j, hj⟩ := List.mem_iff_getElem?.1 hd'
      simp only [List.getElem?_modify] at hj
      cases hx : w.dicts[j]? with
      | none => rw [hx] at hj; simp at hj
      | some x =>
        rw [hx] at hj
        have hxm := hi.dicts x (List.mem_of_getElem? hx)
        simp only [Option.map_eq_map, Option.map_some, Option.some.injEq] at hj
        split at hj
        · rw [← hj]
          exact set_known (given_known hi hg) hxm
        · rw [← hj]; exact hxm
  | field cls args =>
    have hm' := hm
    simp only [step] at hm' ⊢
    unfold newField at hm' ⊢
    split
    · exact ⟨reg, hi⟩
    · rename_i hne
      rw [if_neg hne] at hm'
      cases ht : takeArgs cls w.tr w.errs w.msgs args with
      | none => exact ⟨reg, hi⟩
      | some p =>
        obtain ⟨msgs, ms⟩ := p
        rw [ht] at hm'
        simp only at hm' ⊢
        have hr : ∀ i, i < w.next → register reg w.next (.list w.next none ms) i = reg i := fun i hi => register_old _ _ _ _ hi
        refine ⟨register reg w.next (.list w.next none ms), ⟨fun x hx => ?_, fun d hd => ⟨(hi.dicts d hd).1, fun k s hs => ?_⟩, ?_⟩⟩
        · rcases List.mem_append.1 hx with h1 | h1
          · exact known_mono hm' (Nat.le_succ _) hr (hi.errs x h1)
          · rw [List.mem_singleton.1 h1]
            refine .list (Nat.lt_succ_self _) (register_new _ _ _) fun m hmm => ?_
            have hv := takeArgs_valid hi ht (Nat.le_refl _) m hmm
            simp only [retypeAll_get, hmm, if_true]
            rw [List.getElem?_eq_getElem hv]
            exact ⟨_, _, rfl, rfl⟩
        · exact knownS_mono hm' (Nat.le_succ _) hr (by simp) ((hi.dicts d hd).2 k s hs)
        · exact cacheOk_mono hm' (Nat.le_succ _) hr hi.hashes
  | compound d =>
    simp only [step, newCompound] at hm ⊢
    cases hd : w.dicts[d]? with
    | none => exact ⟨reg, hi⟩
    | some kvs =>
      rw [hd] at hm
      simp only at hm ⊢
      have hkv := hi.dicts kvs (List.mem_of_getElem? hd)
      have hr : ∀ i, i < w.next → register reg w.next (.node w.next (kvs.map fun kv => (kv.1, held w.errs kv.2))) i = reg i :=
        fun i hi => register_old _ _ _ _ hi
      refine ⟨register reg w.next (.node w.next (kvs.map fun kv => (kv.1, held w.errs kv.2))), ⟨fun x hx => ?_, fun d' hd' => ?_, ?_⟩⟩
      · rcases List.mem_append.1 hx with h1 | h1
        · exact known_mono hm (Nat.le_succ _) hr (hi.errs x h1)
        · rw [List.mem_singleton.1 h1]
          refine .node (Nat.lt_succ_self _) (register_new _ _ _) ?_ ?_
          · have := hkv.1
            unfold Dict.Nodup Dict.keys at this ⊢
            rw [List.map_map]; exact this
          · intro k b hb
            obtain ⟨⟨k', s⟩, h1, h2⟩ := List.mem_map.1 hb
            cases h2
            exact known_mono hm (Nat.le_succ _) hr (held_known hi (hkv.2 _ _ h1))
      · rcases List.mem_or_eq_of_mem_set hd' with h1 | h1
        · exact ⟨(hi.dicts d' h1).1, fun k s hs => knownS_mono hm (Nat.le_succ _) hr (by simp) ((hi.dicts d' h1).2 k s hs)⟩
        · rw [h1]
          refine ⟨?_, fun k s hs => ?_⟩
          · have := hkv.1
            unfold Dict.Nodup Dict.keys at this ⊢
            rw [List.map_map]; exact this
          · obtain ⟨⟨k', s'⟩, h1, h2⟩ := List.mem_map.1 hs
            cases h2
            exact knownS_mono hm (Nat.le_succ _) hr (by simp) (settle_known hi (hkv.2 _ _ h1))
      · exact cacheOk_mono hm (Nat.le_succ _) hr hi.hashes
  | report e =>
    refine ⟨reg, ?_⟩
    simp only [step, toPrimitive]
    cases hx : w.errs[e]? with
    | none => exact hi
    | some x =>
      simp only
      cases x.report with
      | some p => exact hi
      | none =>
        simp only
        refine inv_errs hi rfl rfl (fun y hy => ?_) (by simp) rfl rfl
        rcases List.mem_or_eq_of_mem_set hy with h1 | h1
        · exact hi.errs y h1
        · rw [h1]; exact hi.errs x (List.mem_of_getElem? hx)
  | hash e =>
    refine ⟨reg, ?_⟩
    simp only [step, hashErr]
    cases hx : w.errs[e]? with
    | none => exact hi
    | some x =>
      have hk := hashB_ok h w reg x.body w.hashes (hi.errs x (List.mem_of_getElem? hx)) hi.hashes
      exact inv_dicts hi rfl rfl rfl hi.dicts hk.2
  | smash p v => exact ⟨reg, inv_frame hi hm rfl rfl rfl rfl⟩

theorem run_inv (h : Hash) (es : List Event) : ∀ (w : World), CarefulRun h w es → (∃ reg, Inv h w reg) → ∃ reg, Inv h (run h w es) reg := by
  induction es with
  | nil => intro w _ hi; exact hi
  | cons ev es ih =>
    intro w hc hi
    obtain ⟨reg, hi⟩ := hi
    exact ih _ hc.2 (step_inv h w ev hc.1 reg hi)

theorem empty_inv (h : Hash) : Inv h World.empty fun _ => .text "" :=
  ⟨fun _ hx => (by cases hx), fun _ hd => (by cases hd), fun _ _ hi => (by cases hi)⟩

/-! ## Lemmas: hashes of contents -/

theorem contentsM_hash (h : Hash) {w : World} : ∀ {ms l}, ContentsM w ms l → ∀ a,
    ms.foldl (fun a i => match w.msgs[i]? with | some m => a ^^^ h.msg m | none => a) a =
      l.foldl (fun a m => a ^^^ h.values.message m) a
  | _, _, .nil, a => rfl
  | _, _, .cons hx r, a => by
    rw [List.foldl_cons, List.foldl_cons, hx]
    exact contentsM_hash h r _

mutual
theorem contents_hash (h : Hash) {w : World} : ∀ {b t}, Contents w b t → hashP h w b = some (hashT h.values t)
  | _, _, .list hl => by rw [hashP, hashT, hashMsgs]; exact congrArg some (contentsM_hash h hl 0)
  | _, _, .text => by rw [hashP, hashT]; rfl
  | _, _, .node hl => by rw [hashP, hashT, contentsE_hash h hl, Nat.zero_xor]
theorem contentsE_hash (h : Hash) {w : World} : ∀ {kvs es}, ContentsE w kvs es → ∀ {a : Nat}, hashPE h w a kvs = some (a ^^^ hashEntries h.values es)
  | _, _, .nil, a => by rw [hashPE, hashEntries, Nat.xor_zero]
  | _, _, .cons hb r, a => by
    rw [hashPE, hashEntries, contents_hash h hb]
    simp only
    rw [contentsE_hash h r]
    simp only [Hash.values, Nat.xor_assoc]
end

theorem contentsE_keys {w : World} : ∀ {kvs es}, ContentsE w kvs es → Dict.keys es = Dict.keys kvs
  | _, _, .nil => rfl
  | _, _, .cons _ r => by
    have := contentsE_keys r
    unfold Dict.keys at this ⊢
    rw [List.map_cons, List.map_cons, this]

mutual
theorem contents_wf {w : World} {reg : Nat → Body} : ∀ {b t}, Contents w b t → Known w reg b → WF t
  | _, _, .list _, _ => .field
  | _, _, .text, _ => .text
  | _, _, .node hl, hk => by
    cases hk with
    | node _ _ h3 h4 => exact .node (by unfold Dict.Nodup at h3 ⊢; rw [contentsE_keys hl]; exact h3) (contentsE_wf hl h4)
theorem contentsE_wf {w : World} {reg : Nat → Body} : ∀ {kvs es}, ContentsE w kvs es → (∀ k b, (k, b) ∈ kvs → Known w reg b) →
    ∀ kt ∈ es, WF kt.2
  | _, _, .cons hb r, hk, kt, hm => by
    rcases List.mem_cons.1 hm with rfl | hm
    · exact contents_wf hb (hk _ _ List.mem_cons_self)
    · exact contentsE_wf r (fun k b hb => hk k b (List.mem_cons_of_mem _ hb)) kt hm
end

/-! ## The theorems -/

/-- In a program that does not write to messages and does not build errors from messages of the other kind, the hash of an error is, at any
time, that of its contents: the caches are never stale. -/
theorem C101_hash_of_contents (h : Hash) (es : List Event) (hc : CarefulRun h World.empty es) (e : Nat) (x : Err) (t : Tree)
    (hx : (run h World.empty es).errs[e]? = some x) (ht : Contents (run h World.empty es) x.body t) :
    (hashErr h (run h World.empty es) e).2 = some (hashT h.values t) := by
  obtain ⟨reg, hi⟩ := run_inv h es _ hc ⟨_, empty_inv h⟩
  unfold hashErr
  rw [hx]
  simp only
  rw [(hashB_ok h _ reg x.body _ (hi.errs x (List.mem_of_getElem? hx)) hi.hashes).1, contents_hash h ht]

/-- So equal errors have equal hashes, at any time. -/
theorem C101_equal_hashes (h : Hash) (es : List Event) (hc : CarefulRun h World.empty es) (e e' : Nat) (x x' : Err) (t t' : Tree)
    (hx : (run h World.empty es).errs[e]? = some x) (ht : Contents (run h World.empty es) x.body t)
    (hx' : (run h World.empty es).errs[e']? = some x') (ht' : Contents (run h World.empty es) x'.body t')
    (hn : NoText t) (hn' : NoText t') (he : eqT t t' = some true) :
    (hashErr h (run h World.empty es) e).2 = (hashErr h (run h World.empty es) e').2 := by
  obtain ⟨reg, hi⟩ := run_inv h es _ hc ⟨_, empty_inv h⟩
  rw [C101_hash_of_contents h es hc e x t hx ht, C101_hash_of_contents h es hc e' x' t' hx' ht',
    C68_hash h.values t t' (contents_wf ht (hi.errs x (List.mem_of_getElem? hx))) (contents_wf ht' (hi.errs x' (List.mem_of_getElem? hx')))
      hn hn' he]

/-- `to_primitive()` returns the same object for ever, once it has been called, whatever happens. -/
theorem C101_same_report (h : Hash) (w : World) (e p : Nat) (hp : (toPrimitive w e).2 = some p) (es : List Event) :
    (toPrimitive (run h (toPrimitive w e).1 es) e).2 = some p := by
  have key : ∀ (es : List Event) (w : World) (x : Err), w.errs[e]? = some x → x.report = some p →
      (toPrimitive (run h w es) e).2 = some p := by
    intro es
    induction es with
    | nil =>
      intro w x hx hr
      show (toPrimitive w e).2 = _
      unfold toPrimitive
      rw [hx]
      simp only [hr]
    | cons ev es ih =>
      intro w x hx hr
      rcases step_err h w ev e x hx with hs | ⟨_, hn, _, _⟩
      · exact ih _ x hs hr
      · rw [hr] at hn; cases hn
  unfold toPrimitive at hp ⊢
  cases hx : w.errs[e]? with
  | none => rw [hx] at hp; cases hp
  | some x =>
    have hlt : e < w.errs.length := by
      rcases List.getElem?_eq_some_iff.1 hx with ⟨h, _⟩; exact h
    rw [hx] at hp
    simp only at hp ⊢
    cases hr : x.report with
    | some q =>
      rw [hr] at hp
      simp only [Option.some.injEq] at hp
      have := key es w x hx (by rw [hr, hp])
      unfold toPrimitive at this
      exact this
    | none =>
      rw [hr] at hp
      simp only [Option.some.injEq] at hp
      have := key es { w with prims := w.prims ++ [reportB w x.body], errs := w.errs.set e { x with report := some w.prims.length } }
        { x with report := some w.prims.length } (by simp only [List.getElem?_set_self hlt]) (by simp only [hp])
      unfold toPrimitive at this
      exact this

theorem get?_mapv {α β : Type} (f : α → β) (kvs : List (Key × α)) (k : Key) :
    Dict.get? (kvs.map fun kv => (kv.1, f kv.2)) k = (Dict.get? kvs k).map f := by
  induction kvs with
  | nil => rfl
  | cons x r ih =>
    simp only [List.map_cons, Dict.get?]
    split
    · rfl
    · exact ih

/-- What a compound error takes from the dict of the caller, and what it does to this dict: under each key the error has the `errors` of the
error that is there, or the thing itself; in the caller's dict, compound errors (and nothing else) are replaced by their `errors`; no other
dict is touched. -/
theorem C101_compound (w : World) (d : Nat) (kvs : List (Key × Slot)) (hd : w.dicts[d]? = some kvs) :
    ∃ w' id es kvs', newCompound w d = (w', some w.errs.length) ∧ w'.errs[w.errs.length]? = some ⟨none, .node id es, none⟩ ∧
      w'.dicts[d]? = some kvs' ∧ (∀ d', d' ≠ d → w'.dicts[d']? = w.dicts[d']?) ∧
      (∀ k, Dict.get? kvs k = none → Dict.get? es k = none ∧ Dict.get? kvs' k = none) ∧
      (∀ k b, Dict.get? kvs k = some (.other b) → Dict.get? es k = some b ∧ Dict.get? kvs' k = some (.other b)) ∧
      (∀ (k : Key) (e : Nat) (x : Err), Dict.get? kvs k = some (.err e) → w.errs[e]? = some x →
        Dict.get? es k = some x.body ∧ Dict.get? kvs' k = some (if x.cls = none then .other x.body else .err e)) := by
  have hlt : d < w.dicts.length := by
    rcases List.getElem?_eq_some_iff.1 hd with ⟨h, _⟩; exact h
  have hn : newCompound w d = ({ w with
      dicts := w.dicts.set d (kvs.map fun kv => (kv.1, settle w.errs kv.2)),
      errs := w.errs ++ [⟨none, .node w.next (kvs.map fun kv => (kv.1, held w.errs kv.2)), none⟩],
      next := w.next + 1 }, some w.errs.length) := by unfold newCompound; rw [hd]
  refine ⟨_, w.next, kvs.map fun kv => (kv.1, held w.errs kv.2), kvs.map fun kv => (kv.1, settle w.errs kv.2), hn, ?_, ?_, ?_, ?_, ?_, ?_⟩
  · simp only [List.getElem?_append_right (Nat.le_refl _), Nat.sub_self, List.getElem?_cons_zero]
  · simp only [List.getElem?_set_self hlt]
  · intro d' hd'
    simp only [List.getElem?_set_ne (Ne.symm hd')]
  · intro k hk
    rw [get?_mapv, get?_mapv, hk]; exact ⟨rfl, rfl⟩
  · intro k b hk
    rw [get?_mapv, get?_mapv, hk]; exact ⟨rfl, rfl⟩
  · intro k e x hk hx
    rw [get?_mapv, get?_mapv, hk]
    simp only [Option.map_some, held, settle, hx, Option.some.injEq, true_and]
    obtain ⟨c, b, r⟩ := x
    cases c with
    | none => rfl
    | some c => rfl

/-! ## What can change

The conditions of the theorems are needed. -/

/-- A message object used again in an error of the other kind changes its type in the first error too, which is then no longer equal to
errors it was equal to. -/
theorem C101_counterexample_reused_message (h : Hash) :
    let w := run h World.empty [.message (.plain "Bad.") none, .field .valid [.message 0]]
    let w' := run h w [.field .conv [.message 0]]
    (∃ x, w.errs[0]? = some x ∧ Contents w x.body (.field (some .valid) [⟨some .valid, "Bad.", none⟩]) ∧
      Contents w' x.body (.field (some .valid) [⟨some .conv, "Bad.", none⟩])) ∧
    eqT (.field (some .valid) [⟨some .valid, "Bad.", none⟩]) (.field (some .valid) [⟨some .conv, "Bad.", none⟩]) = some false :=
  ⟨⟨_, rfl, .list (.cons rfl .nil), .list (.cons rfl .nil)⟩, by decide⟩

/-- If the hash of the first error was already asked for, the two errors are now equal and have different hashes. -/
theorem C101_counterexample_stale_hash (h : Hash)
    (hh : h.message (some .valid) (.plain "Bad.") none ≠ h.message (some .conv) (.plain "Bad.") none) :
    let w := run h World.empty [.message (.plain "Bad.") none, .field .valid [.message 0], .hash 0, .field .conv [.message 0]]
    (∃ x x' t t', w.errs[0]? = some x ∧ w.errs[1]? = some x' ∧ Contents w x.body t ∧ Contents w x'.body t' ∧ eqT t t' = some true) ∧
    (hashErr h w 0).2 ≠ (hashErr h w 1).2 := by
  refine ⟨⟨_, _, .field (some .valid) [⟨some .conv, "Bad.", none⟩], .field (some .conv) [⟨some .conv, "Bad.", none⟩], rfl, rfl,
    .list (.cons rfl .nil), .list (.cons rfl .nil), by decide⟩, ?_⟩
  have h0 : (hashErr h (run h World.empty [.message (.plain "Bad.") none, .field .valid [.message 0], .hash 0, .field .conv [.message 0]])
      0).2 = some (0 ^^^ h.message (some .valid) (.plain "Bad.") none) := rfl
  have h1 : (hashErr h (run h World.empty [.message (.plain "Bad.") none, .field .valid [.message 0], .hash 0, .field .conv [.message 0]])
      1).2 = some (0 ^^^ h.message (some .conv) (.plain "Bad.") none) := rfl
  show ¬ (hashErr h (run h World.empty [.message (.plain "Bad.") none, .field .valid [.message 0], .hash 0, .field .conv [.message 0]])
      0).2 = (hashErr h (run h World.empty [.message (.plain "Bad.") none, .field .valid [.message 0], .hash 0, .field .conv [.message 0]])
      1).2
  rw [h0, h1, Nat.zero_xor, Nat.zero_xor]
  exact fun he => hh (Option.some.inj he)

/-- A list of texts in an error dict is the caller's: the report shows what is in it when the report is first asked for. -/
theorem C101_counterexample_list (h : Hash) (k : Key) :
    let w := run h World.empty [.newList ["a"], .newDict [(k, .raw 0)], .compound 0]
    reported (run h w [.setList 0 ["b"]]) 0 = some (.dict [(k, .list [.text "b"])]) ∧
    reported (run h w [.report 0, .setList 0 ["b"]]) 0 = some (.dict [(k, .list [.text "a"])]) :=
  ⟨rfl, rfl⟩

/-- Writing to the report that `to_primitive()` returned changes what it returns later. -/
theorem C101_counterexample_report_written (h : Hash) :
    let w := run h World.empty [.field .valid [.text (.plain "Bad.")], .report 0]
    reported w 0 = some (.list [.text "Bad."]) ∧ reported (run h w [.smash 0 (.list [])]) 0 = some (.list []) :=
  ⟨rfl, rfl⟩

/-- A lazy text inside a tuple or a message object is translated when the report is asked for, not when the error is raised. -/
theorem C101_counterexample_lazy (h : Hash) (f : String → String) :
    let w := run h World.empty [.field .valid [.pair (.lazy 0 "Bad.") none, .text (.lazy 0 "Bad.")]]
    reported w 0 = some (.list [.text "Bad.", .text "Bad."]) ∧
    reported (run h w [.translator (some f)]) 0 = some (.list [.text (f "Bad."), .text "Bad."]) :=
  ⟨rfl, rfl⟩

/-! ## The hypotheses are met -/

/-- A careful history: two errors made of shared and new messages, hashed, combined, reported, in two languages. -/
def sampleHistory : List Event :=
  [.message (.plain "Bad.") none, .field .valid [.message 0, .text (.lazy 1 "Worse.")], .hash 0,
   .translator (some fun _ => "Pire."), .field .stop [.message 0], .field .valid [.error 1, .text (.lazy 1 "Worse.")],
   .newDict [(.int 1, .err 0), (.int 2, .err 2)], .compound 0, .hash 3, .newDict [(.int 3, .err 3), (.int 4, .errorsOf 0)],
   .compound 1, .report 4, .setDict 1 (.int 3) (.text "x"), .hash 4]

example (h : Hash) : CarefulRun h World.empty sampleHistory := by
  refine ⟨trivial, ?_, trivial, trivial, ?_, ?_, trivial, trivial, trivial, trivial, trivial, trivial, trivial, trivial, trivial⟩
  · intro m x hs hx
    rcases hs with hs | ⟨e, y, hs, hy, _⟩
    · simp only [List.mem_cons, Arg.message.injEq, reduceCtorEq, List.not_mem_nil, or_false] at hs
      subst hs
      left
      cases (Option.some.inj hx : _ = x)
      rfl
    · simp at hs
  · intro m x hs hx
    rcases hs with hs | ⟨e, y, hs, hy, _⟩
    · simp only [List.mem_cons, Arg.message.injEq, List.not_mem_nil, or_false] at hs
      subst hs
      right
      cases (Option.some.inj hx : _ = x)
      rfl
    · simp at hs
  · intro m x hs hx
    rcases hs with hs | ⟨e, y, hs, hy, hm⟩
    · simp at hs
    · simp only [List.mem_cons, Arg.error.injEq, reduceCtorEq, List.not_mem_nil, or_false] at hs
      subst hs
      cases (Option.some.inj hy : _ = y)
      cases hm with
      | list hm =>
        have hm : m = 0 := by simpa using hm
        subst hm
        right
        cases (Option.some.inj hx : _ = x)
        rfl

/-- An error dict with an error of two messages, in a world with a translator. -/
def sampleWorld : World :=
  ⟨some fun _ => "Pire.", [⟨some .valid, .plain "Bad.", none⟩, ⟨some .valid, .plain "Worse.", none⟩], [], [[(.int 1, .err 0)]],
   [⟨some .valid, .list 0 (some .valid) [0, 1], none⟩, ⟨none, .node 1 [(.int 1, .list 0 (some .valid) [0, 1])], none⟩], [], fun _ => none, 2⟩

/-- It is one that programs reach. -/
example (h : Hash) : run h World.empty [.field .valid [.text (.plain "Bad."), .text (.plain "Worse.")], .newDict [(.int 1, .err 0)],
    .compound 0, .translator (some fun _ => "Pire.")] = sampleWorld := rfl

example (h : Hash) : ∃ x t, sampleWorld.errs[1]? = some x ∧ Contents sampleWorld x.body t ∧ x.report = none ∧
    Quiet h 1 sampleWorld [.translator none, .setDict 0 (.int 1) (.text "y"), .field .conv [.message 0], .report 1] ∧
    KindsKept h 1 sampleWorld [.translator none, .report 1, .field .stop [.text (.plain "No.")]] :=
  ⟨_, .node [(.int 1, .field (some .valid) [⟨some .valid, "Bad.", none⟩, ⟨some .valid, "Worse.", none⟩])], rfl,
    .node (.cons (.list (.cons rfl (.cons rfl .nil))) .nil), rfl, ⟨trivial, trivial, trivial, trivial, trivial⟩,
    ⟨trivial, trivial, fun x m y _ _ hs _ => (by rcases hs with hs | ⟨e, z, hs, _⟩ <;> simp at hs), trivial⟩⟩

example : reported sampleWorld 1 = some (.dict [(.int 1, .list [.text "Bad.", .text "Worse."])]) := rfl

end Verif.Lib.ErrorHeap
