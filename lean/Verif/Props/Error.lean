import Verif.Lib.Error
import Mathlib.Tactic.Common
import Mathlib.Data.List.Perm.Subperm

/-!
# C68, C69: error objects
-/
namespace Verif.Lib

/-! ## Vocabulary -/

/-- Dict keys are distinct, at every level (true of every Python dict). -/
inductive WF : Tree → Prop
  | field {c ms} : WF (.field c ms)
  | text {s} : WF (.text s)
  | node {kvs} : Dict.Nodup kvs → (∀ kv ∈ kvs, WF kv.2) → WF (.node kvs)

/-- There are no bare texts (`'Rogue field'`) in the structure. -/
inductive NoText : Tree → Prop
  | field {c ms} : NoText (.field c ms)
  | node {kvs} : (∀ kv ∈ kvs, NoText kv.2) → NoText (.node kvs)

/-- The same errors: the same messages at the same places, whatever the order of the dict entries and the class of the error objects;
no messages at all are the same as no entries. -/
inductive Same : Tree → Tree → Prop
  | field {c c' ms} : Same (.field c ms) (.field c' ms)
  | empty {c} : Same (.field c []) (.node [])
  | empty' {c} : Same (.node []) (.field c [])
  | node {a b} : (∀ k, k ∈ Dict.keys a ↔ k ∈ Dict.keys b) →
      (∀ k v w, Dict.get? a k = some v → Dict.get? b k = some w → Same v w) → Same (.node a) (.node b)

/-! ## Lemmas -/

theorem wf_get {kvs : List (Key × Tree)} (h : WF (.node kvs)) {k : Key} {v : Tree} (hv : Dict.get? kvs k = some v) : WF v := by
  cases h with
  | node _ h => exact h _ (Dict.mem_of_get? hv)

theorem noText_get {kvs : List (Key × Tree)} (h : NoText (.node kvs)) {k : Key} {v : Tree} (hv : Dict.get? kvs k = some v) : NoText v := by
  cases h with
  | node h => exact h _ (Dict.mem_of_get? hv)

theorem listDict_true {ms : List Message} {b : List (Key × Tree)} (hb : NoText (.node b)) : listDict ms b = some true ↔ ms = [] ∧ b = [] := by
  unfold listDict
  constructor
  · intro h
    split at h
    · cases h
    · rename_i hl
      cases ms with
      | nil =>
        refine ⟨rfl, ?_⟩
        cases b with
        | nil => rfl
        | cons x b => simp at hl
      | cons m ms =>
        unfold msgsDict at h
        split at h
        · cases h
        · rename_i t ht
          have := noText_get hb ht
          cases this <;> simp [msgTree] at h
  · rintro ⟨rfl, rfl⟩; rfl

theorem eqEntries_true {a b : List (Key × Tree)} :
    eqEntries a b = some true ↔ ∀ kv ∈ a, ∃ w, Dict.get? b kv.1 = some w ∧ eqT kv.2 w = some true := by
  induction a with
  | nil => simp [eqEntries]
  | cons kv r ih =>
    obtain ⟨k, v⟩ := kv
    unfold eqEntries
    constructor
    · intro h
      cases hg : Dict.get? b k with
      | none => rw [hg] at h; cases h
      | some w =>
        rw [hg] at h
        simp only at h
        cases he : eqT v w with
        | none => rw [he] at h; cases h
        | some x =>
          rw [he] at h
          cases x with
          | false => cases h
          | true =>
            intro kv hkv
            rcases List.mem_cons.1 hkv with rfl | hkv
            · exact ⟨w, hg, he⟩
            · exact (ih.1 h) kv hkv
    · intro h
      obtain ⟨w, hg, he⟩ := h (k, v) (by simp)
      rw [hg]
      simp only
      rw [he]
      exact ih.2 fun kv hkv => h kv (by simp [hkv])

/-- Distinct keys, all in the other dict, same length: the same keys. -/
theorem keys_of_subset {a b : List (Key × Tree)} (ha : Dict.Nodup a) (hl : a.length = b.length)
    (h : ∀ k ∈ Dict.keys a, k ∈ Dict.keys b) : ∀ k, k ∈ Dict.keys b → k ∈ Dict.keys a := by
  have hs : (Dict.keys a).Subperm (Dict.keys b) := ha.subperm h
  have hp : (Dict.keys a).Perm (Dict.keys b) := hs.perm_of_length_le (by simp [Dict.keys, hl])
  intro k hk
  exact hp.mem_iff.2 hk

/-! ## C68 -/

/-- **C68, equality**: two error structures compare equal iff they hold the same messages at the same places. -/
theorem C68_equality (a b : Tree) (ha : WF a) (hb : WF b) (na : NoText a) (nb : NoText b) : eqT a b = some true ↔ Same a b := by
  constructor
  · intro h
    induction ha generalizing b with
    | text => cases na
    | @field c ms =>
      cases nb with
      | @field c' ms' =>
        have : ms = ms' := by simpa [eqT] using h
        subst this; exact .field
      | @node kvs hn =>
        obtain ⟨rfl, rfl⟩ := (listDict_true (.node hn)).1 (by simpa [eqT] using h)
        exact .empty
    | @node kvs hd hw ih =>
      cases nb with
      | @field c' ms' =>
        obtain ⟨rfl, rfl⟩ := (listDict_true na).1 (by simpa [eqT] using h)
        exact .empty'
      | @node b hn =>
        simp only [eqT] at h
        split at h
        · cases h
        · rename_i hl
          rw [eqEntries_true] at h
          have hsub : ∀ k ∈ Dict.keys kvs, k ∈ Dict.keys b := by
            intro k hk
            obtain ⟨kv, hkv, rfl⟩ := List.mem_map.1 hk
            obtain ⟨w, hg, -⟩ := h kv hkv
            rw [← Dict.get?_isSome, hg]; rfl
          refine .node (fun k => ⟨hsub k, keys_of_subset hd (by simpa using hl) hsub k⟩) ?_
          intro k v w hv hw'
          have hm := Dict.mem_of_get? hv
          obtain ⟨w', hg, he⟩ := h (k, v) hm
          simp only at hg he
          rw [hg] at hw'
          cases hw'
          exact ih (k, v) hm w (wf_get hb hg) (noText_get na hv) (noText_get (.node hn) hg) he
  · intro h
    induction h with
    | field => simp [eqT]
    | empty => simp [eqT, listDict, msgsDict]
    | empty' => simp [eqT, listDict, msgsDict]
    | @node a b hk _ ih =>
      have hda : Dict.Nodup a := by cases ha; assumption
      have hdb : Dict.Nodup b := by cases hb; assumption
      have hl : a.length = b.length := by
        have := (List.perm_ext_iff_of_nodup (l₁ := Dict.keys a) (l₂ := Dict.keys b) hda hdb).2 hk
        simpa [Dict.keys] using this.length_eq
      simp only [eqT, hl, ne_eq, not_true_eq_false, if_false]
      rw [eqEntries_true]
      rintro ⟨k, v⟩ hkv
      have hv : Dict.get? a k = some v := Dict.get?_of_mem hda hkv
      have : k ∈ Dict.keys b := (hk k).1 (List.mem_map.2 ⟨_, hkv, rfl⟩)
      rw [← Dict.get?_isSome] at this
      obtain ⟨w, hw⟩ := Option.isSome_iff_exists.1 this
      exact ⟨w, hw, ih k v w hv hw (wf_get ha hv) (wf_get hb hw) (noText_get na hv) (noText_get nb hw)⟩

theorem Same.refl {a : Tree} (ha : WF a) (na : NoText a) : Same a a := by
  induction ha with
  | text => cases na
  | field => exact .field
  | node hd _ ih =>
    refine .node (fun _ => Iff.rfl) fun k v w hv hw => ?_
    rw [hv] at hw
    cases hw
    exact ih (k, v) (Dict.mem_of_get? hv) (noText_get na hv)

theorem Same.symm {a b : Tree} (h : Same a b) : Same b a := by
  induction h with
  | field => exact .field
  | empty => exact .empty'
  | empty' => exact .empty
  | node hk _ ih => exact .node (fun k => (hk k).symm) fun k v w hv hw => ih k w v hw hv

theorem Same.trans {a b c : Tree} (h : Same a b) (h' : Same b c) : Same a c := by
  have nil : ∀ {b : List (Key × Tree)}, (∀ k, k ∈ Dict.keys ([] : List (Key × Tree)) ↔ k ∈ Dict.keys b) → b = [] := by
    intro b hb
    cases b with
    | nil => rfl
    | cons x b => have := (hb x.1).2 (by simp); simp at this
  induction h generalizing c with
  | field =>
    cases h' with
    | field => exact .field
    | empty => exact .empty
  | empty =>
    cases h' with
    | empty' => exact .field
    | node hk _ => rw [nil hk]; exact .empty
  | empty' =>
    cases h' with
    | field => exact .empty'
    | empty => exact .node (fun _ => Iff.rfl) (by intro k v w hv; cases hv)
  | @node a b hk hs ih =>
    cases h' with
    | empty' =>
      have : a = [] := nil fun k => (hk k).symm
      subst this
      exact .empty'
    | @node _ c hk' hs' =>
      refine .node (fun k => (hk k).trans (hk' k)) fun k v w hv hw => ?_
      have : k ∈ Dict.keys b := (hk k).1 (by rw [← Dict.get?_isSome, hv]; rfl)
      rw [← Dict.get?_isSome] at this
      obtain ⟨x, hx⟩ := Option.isSome_iff_exists.1 this
      exact ih k v x hv hx (hs' k x w hx hw)

/-- **C68, equivalence**: equality of error structures is an equivalence relation. -/
theorem C68_equivalence (a b c : Tree) (ha : WF a) (hb : WF b) (hc : WF c) (na : NoText a) (nb : NoText b) (nc : NoText c) :
    eqT a a = some true ∧ (eqT a b = some true → eqT b a = some true) ∧
    (eqT a b = some true → eqT b c = some true → eqT a c = some true) := by
  rw [C68_equality a a ha ha na na, C68_equality a b ha hb na nb, C68_equality b a hb ha nb na, C68_equality b c hb hc nb nc,
    C68_equality a c ha hc na nc]
  exact ⟨.refl ha na, Same.symm, Same.trans⟩

/-! ### Hashes -/

theorem hashEntries_erase (h : Hashes) {b : List (Key × Tree)} {k : Key} {w : Tree} (hw : Dict.get? b k = some w) :
    hashEntries h b = (h.key k ^^^ hashT h w) ^^^ hashEntries h (Dict.erase b k) := by
  induction b with
  | nil => cases hw
  | cons x b ih =>
    obtain ⟨k', w'⟩ := x
    unfold Dict.erase
    rw [Dict.get?_cons] at hw
    split at hw
    · rename_i hk
      cases hw; subst hk
      rw [if_pos rfl]
      rfl
    · rename_i hk
      rw [if_neg hk]
      simp only [hashEntries]
      rw [ih hw, ← Nat.xor_assoc, ← Nat.xor_assoc (h.key k ^^^ hashT h w), Nat.xor_comm (h.key k' ^^^ hashT h w') (h.key k ^^^ hashT h w)]

theorem hashEntries_same (h : Hashes) : ∀ {a b : List (Key × Tree)}, Dict.Nodup a → Dict.Nodup b → (∀ k, k ∈ Dict.keys a ↔ k ∈ Dict.keys b) →
    (∀ k v w, Dict.get? a k = some v → Dict.get? b k = some w → hashT h v = hashT h w) → hashEntries h a = hashEntries h b := by
  intro a
  induction a with
  | nil =>
    intro b _ _ hk _
    cases b with
    | nil => rfl
    | cons x b => have := (hk x.1).2 (by simp); simp at this
  | cons x a ih =>
    obtain ⟨k, v⟩ := x
    intro b ha hb hk hs
    simp only [Dict.Nodup, Dict.keys_cons, List.nodup_cons] at ha
    have : k ∈ Dict.keys b := (hk k).1 (by simp)
    rw [← Dict.get?_isSome] at this
    obtain ⟨w, hw⟩ := Option.isSome_iff_exists.1 this
    rw [hashEntries_erase h hw]
    simp only [hashEntries]
    rw [hs k v w (by simp [Dict.get?]) hw]
    congr 1
    refine ih ha.2 (Dict.nodup_erase hb k) (fun x => ?_) (fun x y z hy hz => ?_)
    · rw [Dict.keys_erase, List.Nodup.mem_erase_iff hb]
      have := hk x
      simp only [Dict.keys_cons, List.mem_cons] at this
      constructor
      · intro hx
        exact ⟨by rintro rfl; exact ha.1 hx, this.1 (Or.inr hx)⟩
      · rintro ⟨h1, h2⟩
        rcases this.2 h2 with h3 | h3
        · exact absurd h3 h1
        · exact h3
    · have hne : k ≠ x := by
        rintro rfl
        have := (Dict.get?_isSome a k).1 (by rw [hy]; rfl)
        exact ha.1 this
      rw [Dict.get?_erase_ne b hne] at hz
      exact hs x y z (by simp [Dict.get?, hne, hy]) hz

/-- **C68, hashes**: equal error structures have equal hashes, whatever the hash functions of their parts. -/
theorem C68_hash (h : Hashes) (a b : Tree) (ha : WF a) (hb : WF b) (na : NoText a) (nb : NoText b) (he : eqT a b = some true) :
    hashT h a = hashT h b := by
  rw [C68_equality a b ha hb na nb] at he
  clear na nb
  induction he with
  | field => simp [hashT]
  | empty => simp [hashT, hashEntries]
  | empty' => simp [hashT, hashEntries]
  | @node a b hk _ ih =>
    have hda : Dict.Nodup a := by cases ha; assumption
    have hdb : Dict.Nodup b := by cases hb; assumption
    simp only [hashT]
    exact hashEntries_same h hda hdb hk fun k v w hv hw => ih k v w hv hw (wf_get ha hv) (wf_get hb hw)

/-- **C68, order**: the order in which errors were entered matters neither for equality nor for the hash. -/
theorem C68_order_irrelevant (h : Hashes) (a b : List (Key × Tree)) (hp : a.Perm b) (ha : WF (.node a)) (na : NoText (.node a)) :
    eqT (.node a) (.node b) = some true ∧ hashT h (.node a) = hashT h (.node b) := by
  have hda : Dict.Nodup a := by cases ha; assumption
  have hw : ∀ kv ∈ a, WF kv.2 := by cases ha; assumption
  have hn : ∀ kv ∈ a, NoText kv.2 := by cases na; assumption
  have hdb : Dict.Nodup b := (hp.map Prod.fst).nodup_iff.1 hda
  have hb : WF (.node b) := .node hdb fun kv hkv => hw kv (hp.mem_iff.2 hkv)
  have nb : NoText (.node b) := .node fun kv hkv => hn kv (hp.mem_iff.2 hkv)
  have he : eqT (.node a) (.node b) = some true := by
    rw [C68_equality _ _ ha hb na nb]
    refine .node (fun k => (hp.map Prod.fst).mem_iff) fun k v w hv hw' => ?_
    have h1 := Dict.mem_of_get? hv
    have h2 := hp.mem_iff.1 h1
    rw [Dict.get?_of_mem hdb h2] at hw'
    cases hw'
    exact .refl (hw _ h1) (hn _ h1)
  exact ⟨he, C68_hash h _ _ ha hb na nb he⟩

/-! ### All structures, also with bare texts -/

/-- What `==` compares equal: as `Same`, but a bare text equals the same text and an error whose messages are the characters of the text one by
one; and an error equals a dict that has under the indices `0, 1, …` the texts of its messages and nothing else. -/
inductive Equal : Tree → Tree → Prop
  | field {c c' ms} : Equal (.field c ms) (.field c' ms)
  | text {s} : Equal (.text s) (.text s)
  | fieldText {c} {ms : List Message} {s : String} : ms.map (fun m => m.summary.toList) = s.toList.map (fun x => [x]) → Equal (.field c ms) (.text s)
  | textField {c} {ms : List Message} {s : String} : ms.map (fun m => m.summary.toList) = s.toList.map (fun x => [x]) → Equal (.text s) (.field c ms)
  | fieldNode {c} {ms : List Message} {b : List (Key × Tree)} : ms.length = b.length →
      (∀ (i : Nat) (m : Message), ms[i]? = some m → Dict.get? b (.int i) = some (.text m.summary)) → Equal (.field c ms) (.node b)
  | nodeField {c} {ms : List Message} {b : List (Key × Tree)} : ms.length = b.length →
      (∀ (i : Nat) (m : Message), ms[i]? = some m → Dict.get? b (.int i) = some (.text m.summary)) → Equal (.node b) (.field c ms)
  | node {a b} : (∀ k, k ∈ Dict.keys a ↔ k ∈ Dict.keys b) →
      (∀ k v w, Dict.get? a k = some v → Dict.get? b k = some w → Equal v w) → Equal (.node a) (.node b)

theorem msgsText_iff (ms : List Message) (cs : List Char) :
    msgsText ms cs = true ↔ ms.map (fun m => m.summary.toList) = cs.map (fun x => [x]) := by
  induction ms generalizing cs with
  | nil => cases cs <;> simp [msgsText]
  | cons m ms ih =>
    cases cs with
    | nil => simp [msgsText]
    | cons c cs =>
      simp only [msgsText, Bool.and_eq_true, beq_iff_eq, ih, List.map_cons, List.cons.injEq]
      constructor
      · rintro ⟨h1, h2⟩; exact ⟨by rw [h1]; simp, h2⟩
      · rintro ⟨h1, h2⟩; exact ⟨by rw [← h1]; simp, h2⟩

theorem msgTree_iff (m : Message) (t : Tree) : msgTree m t = true ↔ t = .text m.summary := by
  cases t with
  | text s => simp only [msgTree, beq_iff_eq, Tree.text.injEq]; exact eq_comm
  | _ => simp [msgTree]

theorem msgsDict_iff (i : Nat) (ms : List Message) (b : List (Key × Tree)) :
    msgsDict i ms b = some true ↔ ∀ (j : Nat) (m : Message), ms[j]? = some m → Dict.get? b (.int ((i + j : Nat) : Int)) = some (.text m.summary) := by
  induction ms generalizing i with
  | nil => simp [msgsDict]
  | cons m ms ih =>
    unfold msgsDict
    constructor
    · intro h
      cases hg : Dict.get? b (Key.int i) with
      | none => rw [hg] at h; cases h
      | some t =>
        rw [hg] at h
        simp only at h
        split at h
        · rename_i hm
          rw [msgTree_iff] at hm
          subst hm
          intro j m' hj
          cases j with
          | zero => simp at hj; subst hj; simpa using hg
          | succ j =>
            have := (ih (i + 1)).1 h j m' (by simpa using hj)
            rw [show i + (j + 1) = i + 1 + j by omega]
            exact this
        · cases h
    · intro h
      have h0 := h 0 m rfl
      rw [Nat.add_zero] at h0
      rw [h0]
      simp only
      rw [if_pos ((msgTree_iff _ _).2 rfl)]
      refine (ih (i + 1)).2 fun j m' hj => ?_
      have := h (j + 1) m' (by simpa using hj)
      rw [show i + 1 + j = i + (j + 1) by omega]
      exact this

theorem listDict_iff (ms : List Message) (b : List (Key × Tree)) : listDict ms b = some true ↔ ms.length = b.length ∧
    ∀ (i : Nat) (m : Message), ms[i]? = some m → Dict.get? b (.int i) = some (.text m.summary) := by
  unfold listDict
  split
  · rename_i h
    simp only [Option.some.injEq, Bool.false_eq_true, false_iff, not_and]
    intro e; exact absurd e h
  · rename_i h
    rw [msgsDict_iff]
    simp only [ne_eq, not_not] at h
    simp only [Nat.zero_add, h, true_and]

/-- **C68, equality of any structures**, bare texts included. -/
theorem C68_equality_any (a b : Tree) (ha : WF a) (hb : WF b) : eqT a b = some true ↔ Equal a b := by
  constructor
  · intro h
    induction ha generalizing b with
    | text =>
      cases b with
      | text s => have := by simpa [eqT] using h
                  subst this; exact .text
      | field c ms => exact .textField ((msgsText_iff _ _).1 (by simpa [eqT] using h))
      | node b => simp [eqT] at h
    | @field c ms =>
      cases b with
      | text s => exact .fieldText ((msgsText_iff _ _).1 (by simpa [eqT] using h))
      | field c' ms' =>
        have : ms = ms' := by simpa [eqT] using h
        subst this; exact .field
      | node b =>
        have := (listDict_iff _ _).1 (by simpa [eqT] using h)
        exact .fieldNode this.1 this.2
    | @node kvs hd hw ih =>
      cases b with
      | text s => simp [eqT] at h
      | field c' ms' =>
        have := (listDict_iff _ _).1 (by simpa [eqT] using h)
        exact .nodeField this.1 this.2
      | node b =>
        simp only [eqT] at h
        split at h
        · cases h
        · rename_i hl
          rw [eqEntries_true] at h
          have hsub : ∀ k ∈ Dict.keys kvs, k ∈ Dict.keys b := by
            intro k hk
            obtain ⟨kv, hkv, rfl⟩ := List.mem_map.1 hk
            obtain ⟨w, hg, -⟩ := h kv hkv
            rw [← Dict.get?_isSome, hg]; rfl
          refine .node (fun k => ⟨hsub k, keys_of_subset hd (by simpa using hl) hsub k⟩) ?_
          intro k v w hv hw'
          have hm := Dict.mem_of_get? hv
          obtain ⟨w', hg, he⟩ := h (k, v) hm
          simp only at hg he
          rw [hg] at hw'
          cases hw'
          exact ih (k, v) hm w (wf_get hb hg) he
  · intro h
    induction h with
    | field => simp [eqT]
    | text => simp [eqT]
    | fieldText h => simp only [eqT]; rw [(msgsText_iff _ _).2 h]
    | textField h => simp only [eqT]; rw [(msgsText_iff _ _).2 h]
    | fieldNode h1 h2 => simp only [eqT]; exact (listDict_iff _ _).2 ⟨h1, h2⟩
    | nodeField h1 h2 => simp only [eqT]; exact (listDict_iff _ _).2 ⟨h1, h2⟩
    | @node a b hk _ ih =>
      have hda : Dict.Nodup a := by cases ha; assumption
      have hdb : Dict.Nodup b := by cases hb; assumption
      have hl : a.length = b.length := by
        have := (List.perm_ext_iff_of_nodup (l₁ := Dict.keys a) (l₂ := Dict.keys b) hda hdb).2 hk
        simpa [Dict.keys] using this.length_eq
      simp only [eqT, hl, ne_eq, not_true_eq_false, if_false]
      rw [eqEntries_true]
      rintro ⟨k, v⟩ hkv
      have hv : Dict.get? a k = some v := Dict.get?_of_mem hda hkv
      have : k ∈ Dict.keys b := (hk k).1 (List.mem_map.2 ⟨_, hkv, rfl⟩)
      rw [← Dict.get?_isSome] at this
      obtain ⟨w, hw⟩ := Option.isSome_iff_exists.1 this
      exact ⟨w, hw, ih k v w hv hw (wf_get ha hv) (wf_get hb hw)⟩

/-- Nowhere does a field error face a dict with as many entries as it has messages. -/
inductive Comparable : Tree → Tree → Prop
  | field {c c' ms ms'} : Comparable (.field c ms) (.field c' ms')
  | left {s t} : Comparable (.text s) t
  | right {s t} : Comparable t (.text s)
  | fieldNode {c} {ms : List Message} {b : List (Key × Tree)} : ms.length ≠ b.length → Comparable (.field c ms) (.node b)
  | nodeField {c} {ms : List Message} {b : List (Key × Tree)} : ms.length ≠ b.length → Comparable (.node b) (.field c ms)
  | node {a b} : (∀ k v w, Dict.get? a k = some v → Dict.get? b k = some w → Comparable v w) → Comparable (.node a) (.node b)

/-- **C68, comparisons that do not raise.** -/
theorem C68_comparison_total (a b : Tree) (ha : WF a) (h : Comparable a b) : eqT a b = some true ∨ eqT a b = some false := by
  have some_or : ∀ x : Bool, some x = some true ∨ some x = some false := by intro x; cases x <;> simp
  induction h with
  | field => unfold eqT; exact some_or _
  | @left s t => cases t <;> unfold eqT <;> exact some_or _
  | @right s t => cases t <;> unfold eqT <;> exact some_or _
  | fieldNode h => unfold eqT listDict; rw [if_pos h]; exact some_or _
  | nodeField h => unfold eqT listDict; rw [if_pos h]; exact some_or _
  | @node a b h ih =>
    simp only [eqT]
    split
    · exact some_or _
    · have hda : Dict.Nodup a := by cases ha; assumption
      have key : ∀ r : List (Key × Tree), (∀ kv ∈ r, kv ∈ a) → eqEntries r b = some true ∨ eqEntries r b = some false := by
        intro r
        induction r with
        | nil => intro _; exact Or.inl (by simp [eqEntries])
        | cons x r ihr =>
          intro hr
          obtain ⟨k, v⟩ := x
          unfold eqEntries
          cases hg : Dict.get? b k with
          | none => exact Or.inr rfl
          | some w =>
            have hv : Dict.get? a k = some v := Dict.get?_of_mem hda (hr (k, v) (by simp))
            rcases ih k v w hv hg (wf_get ha hv) with e | e
            · simp only [e]; exact ihr fun kv hkv => hr kv (by simp [hkv])
            · simp [e]
      exact key a fun _ h => h

/-- **C68, what fails with bare texts**: an error with the messages `'a'`, `'b'` equals the text `'ab'`, whose hash is another; and equality
is not transitive. -/
theorem C68_counterexample_text (h : Hashes) (hh : h.text "ab" ≠ (h.message ⟨some .valid, "a", none⟩ ^^^ h.message ⟨some .valid, "b", none⟩)) :
    ∃ a b c, eqT a b = some true ∧ hashT h a ≠ hashT h b ∧ eqT b c = some true ∧ eqT a c = some false := by
  refine ⟨.field (some .valid) [⟨some .valid, "a", none⟩, ⟨some .valid, "b", none⟩], .text "ab",
    .field (some .conv) [⟨some .conv, "a", none⟩, ⟨some .conv, "b", none⟩], ?_, ?_, ?_, ?_⟩
  · simp [eqT, msgsText]
  · simp [hashT]; exact fun e => hh e.symm
  · simp [eqT, msgsText]
  · simp [eqT]

/-- **C68, comparisons may raise**: comparing a data error with one message for a field against one with a nested error for the same field
raises `KeyError`. -/
theorem C68_counterexample_comparison_raises (k k' : String) (m : Message) (t : Tree) (c : Option FKind) :
    eqT (.node [(.str k, .field c [m])]) (.node [(.str k, .node [(.str k', t)])]) = none := by
  simp [eqT, eqEntries, Dict.get?, listDict, msgsDict]

/-! ## C69 -/

mutual
/-- The number of messages. -/
def count : Tree → Nat
  | .text _ => 1
  | .field _ ms => ms.length
  | .node kvs => countEntries kvs
/-- The same for dict entries. -/
def countEntries : List (Key × Tree) → Nat
  | [] => 0
  | (_, v) :: r => count v + countEntries r
end

mutual
/-- The number of texts in plain data. -/
def texts : Prim → Nat
  | .text _ => 1
  | .list xs => textsAll xs
  | .dict kvs => textsEntries kvs
/-- The same for list items. -/
def textsAll : List Prim → Nat
  | [] => 0
  | x :: r => texts x + textsAll r
/-- The same for dict entries. -/
def textsEntries : List (Key × Prim) → Nat
  | [] => 0
  | (_, v) :: r => texts v + textsEntries r
end

/-- `p` is at path `path` of plain data. -/
inductive PrimAt : Prim → List Key → Prim → Prop
  | here {p} : PrimAt p [] p
  | down {kvs k p path q} : Dict.get? kvs k = some p → PrimAt p path q → PrimAt (.dict kvs) (k :: path) q

/-- `t` is at path `path` of an error structure. -/
inductive ErrAt : ErrTree → List Key → ErrTree → Prop
  | here {t} : ErrAt t [] t
  | down {es k t path u} : Dict.get? es k = some t → ErrAt t path u → ErrAt (.node es) (k :: path) u

/-- The plain form of the errors at one place: a list of message texts, or a text. -/
def plainLeaf : ErrTree → Option Prim
  | .leaf _ ms => some (.list (ms.map .text))
  | .msgs ms => some (.list (ms.map .text))
  | .rogue => some (.text "Rogue field")
  | .node _ => none

theorem textsAll_map (ms : List Message) : textsAll (ms.map fun m => .text m.str) = ms.length := by
  induction ms with
  | nil => rfl
  | cons m ms ih => simp [textsAll, texts, ih, Nat.add_comm]

mutual
theorem texts_toPrim : (t : Tree) → texts (toPrim t) = count t
  | .text s => by simp [toPrim, texts, count]
  | .field c ms => by simp only [toPrim, texts, count]; exact textsAll_map ms
  | .node kvs => by simp only [toPrim, texts, count]; exact texts_toPrimEntries kvs
theorem texts_toPrimEntries : (kvs : List (Key × Tree)) → textsEntries (toPrimEntries kvs) = countEntries kvs
  | [] => by simp [toPrimEntries, textsEntries, countEntries]
  | (k, v) :: r => by simp only [toPrimEntries, textsEntries, countEntries]; rw [texts_toPrim v, texts_toPrimEntries r]
end

/-- **C69, no message lost**: the report has exactly one text per message. -/
theorem C69_messages_preserved (t : Tree) : texts (toPrim t) = count t := texts_toPrim t

theorem toPrimEntries_get (kvs : List (Key × Tree)) (k : Key) : Dict.get? (toPrimEntries kvs) k = (Dict.get? kvs k).map toPrim := by
  induction kvs with
  | nil => rfl
  | cons x r ih =>
    obtain ⟨k', v⟩ := x
    simp only [toPrimEntries, Dict.get?_cons, ih]
    split <;> rfl

theorem mkCompound_get (kvs : List (Key × Raised)) (k : Key) : Dict.get? (mkCompound kvs) k = (Dict.get? kvs k).map Raised.flat := by
  induction kvs with
  | nil => rfl
  | cons x r ih =>
    obtain ⟨k', v⟩ := x
    simp only [mkCompound, List.map_cons] at ih ⊢
    simp only [Dict.get?_cons]
    rw [ih]
    split <;> rfl

theorem raiseEntries_get (es : List (Key × ErrTree)) (k : Key) : Dict.get? (raiseEntries es) k = (Dict.get? es k).map raiseTree := by
  induction es with
  | nil => rfl
  | cons x r ih =>
    obtain ⟨k', v⟩ := x
    simp only [raiseEntries, Dict.get?_cons, ih]
    split <;> rfl

theorem plainLeaf_spec {t : ErrTree} {p : Prim} (h : plainLeaf t = some p) : toPrim (raiseTree t).flat = p := by
  have hs : ∀ (ty : Option FKind) (ms : List Msg),
      (ms.map fun m => (⟨ty, m, none⟩ : Message)).map (fun m => Prim.text m.str) = ms.map Prim.text := by
    intro ty ms; simp [Message.str, Function.comp_def]
  cases t with
  | leaf k ms => cases h; simp only [raiseTree, Raised.flat, toPrim]; rw [hs]
  | msgs ms => cases h; simp only [raiseTree, Raised.flat, toPrim]; rw [hs]
  | rogue => cases h; simp [raiseTree, Raised.flat, toPrim]
  | node es => cases h

/-- **C69, structure**: the report of a raised error (nested compound errors being unwrapped by the constructors) is at every path what the
error structure has there: at the place of a field error the list of its message texts, and nothing is added: `path` leads to a list or text
in the report only where the error structure has one. -/
theorem C69_structure_preserved (t : ErrTree) (path : List Key) (p : Prim) (hp : ∀ kvs, p ≠ .dict kvs) :
    PrimAt (toPrim (raiseTree t).flat) path p ↔ ∃ u, ErrAt t path u ∧ plainLeaf u = some p := by
  have node : ∀ es, toPrim (raiseTree (.node es)).flat = .dict (toPrimEntries (mkCompound (raiseEntries es))) := by
    intro es; simp [raiseTree, Raised.flat, toPrim]
  have get : ∀ es k, Dict.get? (toPrimEntries (mkCompound (raiseEntries es))) k = (Dict.get? es k).map fun t => toPrim (raiseTree t).flat := by
    intro es k
    rw [toPrimEntries_get, mkCompound_get, raiseEntries_get]
    cases Dict.get? es k <;> rfl
  constructor
  · induction path generalizing t with
    | nil =>
      intro h
      have h : p = toPrim (raiseTree t).flat := by
        generalize toPrim (raiseTree t).flat = q at h
        cases h; rfl
      subst h
      cases t with
      | node es => exact absurd (node es) (hp _)
      | leaf k ms => exact ⟨_, .here, by rw [plainLeaf_spec (t := .leaf k ms) rfl]; rfl⟩
      | msgs ms => exact ⟨_, .here, by rw [plainLeaf_spec (t := .msgs ms) rfl]; rfl⟩
      | rogue => exact ⟨_, .here, by rw [plainLeaf_spec (t := .rogue) rfl]; rfl⟩
    | cons k path ih =>
      intro h
      cases t with
      | node es =>
        rw [node] at h
        cases h with
        | down hg hr =>
          rw [get] at hg
          obtain ⟨t, ht, rfl⟩ := Option.map_eq_some_iff.1 hg
          obtain ⟨u, h1, h2⟩ := ih t hr
          exact ⟨u, .down ht h1, h2⟩
      | leaf c ms => rw [plainLeaf_spec (t := .leaf c ms) rfl] at h; cases h
      | msgs ms => rw [plainLeaf_spec (t := .msgs ms) rfl] at h; cases h
      | rogue => rw [plainLeaf_spec (t := .rogue) rfl] at h; cases h
  · rintro ⟨u, h1, h2⟩
    induction h1 with
    | here => rw [plainLeaf_spec h2]; exact .here
    | @down es k t path u hg _ ih =>
      rw [node]
      refine .down ?_ (ih h2)
      rw [get, hg]; rfl

/-- `u` is at path `path` of an error object. -/
inductive TreeAt : Tree → List Key → Tree → Prop
  | here {t} : TreeAt t [] t
  | down {kvs k t path u} : Dict.get? kvs k = some t → TreeAt t path u → TreeAt (.node kvs) (k :: path) u

/-- The text of a message in a report: the summary, and after a colon the info, in quotes if it is a text; an empty text or a zero is no info. -/
inductive Shown : Message → String → Prop
  | bare {ty s} : Shown ⟨ty, s, none⟩ s
  | text {ty s i} : i ≠ "" → Shown ⟨ty, s, some (.text i)⟩ (s ++ ": \"" ++ i ++ "\"")
  | emptyText {ty s} : Shown ⟨ty, s, some (.text "")⟩ s
  | int {ty s} {i : Int} : i ≠ 0 → Shown ⟨ty, s, some (.int i)⟩ (s ++ ": " ++ toString i)
  | zero {ty s} : Shown ⟨ty, s, some (.int 0)⟩ s

theorem shown_iff (m : Message) (s : String) : Shown m s ↔ m.str = s := by
  constructor
  · intro h; cases h <;> simp_all [Message.str]
  · rintro rfl
    obtain ⟨ty, s, i⟩ := m
    unfold Message.str
    cases i with
    | none => exact .bare
    | some i =>
      cases i with
      | text i =>
        by_cases h : i = ""
        · subst h; exact .emptyText
        · simp only [h, if_false]; exact .text h
      | int i =>
        by_cases h : i = 0
        · subst h; exact .zero
        · simp only [h, if_false]; exact .int h

/-- **C69, report of any error object**: `path` leads to a text in the report iff it leads to that text in the error; it leads to a list of texts iff
it leads to a field error whose messages they show, one by one and in order; and it leads to a dict iff it leads to a nested error dict, with the
same keys in the same order. -/
theorem C69_report (t : Tree) (path : List Key) :
    (∀ s, PrimAt (toPrim t) path (.text s) ↔ TreeAt t path (.text s)) ∧
    (∀ xs, PrimAt (toPrim t) path (.list xs) ↔ ∃ c ms ss, TreeAt t path (.field c ms) ∧ xs = ss.map .text ∧ List.Forall₂ Shown ms ss) ∧
    (∀ ks, (∃ kvs, PrimAt (toPrim t) path (.dict kvs) ∧ Dict.keys kvs = ks) ↔ ∃ kvs, TreeAt t path (.node kvs) ∧ Dict.keys kvs = ks) := by
  have key : ∀ p, PrimAt (toPrim t) path p ↔ ∃ u, TreeAt t path u ∧ toPrim u = p := by
    intro p
    constructor
    · induction path generalizing t with
      | nil =>
        intro h
        generalize hq : toPrim t = q at h
        cases h
        exact ⟨t, .here, hq⟩
      | cons k path ih =>
        intro h
        cases t with
        | text s => simp only [toPrim] at h; cases h
        | field c ms => simp only [toPrim] at h; cases h
        | node kvs =>
          simp only [toPrim] at h
          cases h with
          | down hg hr =>
            rw [toPrimEntries_get] at hg
            obtain ⟨t, ht, rfl⟩ := Option.map_eq_some_iff.1 hg
            obtain ⟨u, h1, h2⟩ := ih t hr
            exact ⟨u, .down ht h1, h2⟩
    · rintro ⟨u, h, rfl⟩
      induction h with
      | here => exact .here
      | @down kvs k t path u hg _ ih =>
        simp only [toPrim]
        exact .down (by rw [toPrimEntries_get, hg]; rfl) ih
  have f2 : ∀ ms ss, List.Forall₂ Shown ms ss ↔ ms.map Message.str = ss := by
    intro ms
    induction ms with
    | nil => intro ss; cases ss <;> simp
    | cons m ms ih => intro ss; cases ss <;> simp [ih, shown_iff]
  refine ⟨fun s => ?_, fun xs => ?_, fun ks => ?_⟩
  · rw [key]
    constructor
    · rintro ⟨u, h, e⟩
      cases u <;> simp only [toPrim, Prim.text.injEq, reduceCtorEq] at e
      subst e; exact h
    · intro h; exact ⟨_, h, by simp [toPrim]⟩
  · rw [key]
    constructor
    · rintro ⟨u, h, e⟩
      cases u <;> simp only [toPrim, Prim.list.injEq, reduceCtorEq] at e
      exact ⟨_, _, _, h, by rw [← e, List.map_map]; rfl, (f2 _ _).2 rfl⟩
    · rintro ⟨c, ms, ss, h, rfl, h2⟩
      refine ⟨_, h, ?_⟩
      rw [← (f2 _ _).1 h2]
      simp [toPrim]
  · have keysEq : ∀ kvs : List (Key × Tree), Dict.keys (toPrimEntries kvs) = Dict.keys kvs := by
      intro kvs
      induction kvs with
      | nil => rfl
      | cons x r ih => obtain ⟨k, v⟩ := x; simp [toPrimEntries, ih]
    constructor
    · rintro ⟨kvs, h, rfl⟩
      obtain ⟨u, h', e⟩ := (key _).1 h
      cases u <;> simp only [toPrim, Prim.dict.injEq, reduceCtorEq] at e
      subst e
      exact ⟨_, h', (keysEq _).symm⟩
    · rintro ⟨kvs, h, rfl⟩
      exact ⟨_, (key _).2 ⟨_, h, rfl⟩, by simp only [keysEq]⟩

/-- The messages an argument of an error's constructor stands for, as (summary, info); `cls` is the class of the error. -/
inductive Stands (cls : FKind) : Item → List (String × Option Info) → Prop
  | text {s} : Stands cls (.text s) [(s, none)]
  | pair {s i} : Stands cls (.pair s i) [(s, i)]
  | message {m} : Stands cls (.message m) [(m.summary, m.info)]
  | error {c} {ms : List Message} : (c = cls ∨ c = .stop ∧ cls = .valid) → Stands cls (.error c ms) (ms.map fun m => (m.summary, m.info))

theorem isA_iff (c cls : FKind) : FKind.isA c cls = true ↔ c = cls ∨ c = .stop ∧ cls = .valid := by
  cases c <;> cases cls <;> simp [FKind.isA]

theorem stands_iff (cls : FKind) (i : Item) (xs : List (String × Option Info)) :
    Stands cls i xs ↔ ∃ ms, itemMessages cls i = some ms ∧ ms.map (fun m => (m.summary, m.info)) = xs := by
  constructor
  · intro h
    cases h with
    | error h => exact ⟨_, by rw [itemMessages, if_pos ((isA_iff _ _).2 h)], rfl⟩
    | _ => exact ⟨_, rfl, rfl⟩
  · rintro ⟨ms, h, rfl⟩
    cases i with
    | error c ms' =>
      simp only [itemMessages] at h
      split at h
      · rename_i hc; cases h; exact .error ((isA_iff _ _).1 hc)
      · cases h
    | other => cases h
    | text => cases h; exact .text
    | pair => cases h; exact .pair
    | message => cases h; exact .message

/-- **C69, construction of field errors**: the messages are those of the arguments in order, all of the type of the error (a `StopValidationError`
makes validation messages); the construction fails (`TypeError`) iff some argument is neither a message nor an error of the same class (a
`StopValidationError` is a `ValidationError`). -/
theorem C69_field_error (cls : FKind) (items : List Item) :
    (∀ ms, mkField cls items = some ms → (∃ parts, List.Forall₂ (Stands cls) items parts ∧ ms.map (fun m => (m.summary, m.info)) = parts.flatten) ∧
      ∀ m ∈ ms, m.type = some (if cls = .conv then .conv else .valid)) ∧
    (mkField cls items = none ↔ ∃ i ∈ items, ¬ ∃ xs, Stands cls i xs) := by
  have hall : ∀ ms, allMessages cls items = some ms →
      ∃ parts, List.Forall₂ (Stands cls) items parts ∧ ms.map (fun m => (m.summary, m.info)) = parts.flatten := by
    induction items with
    | nil => intro ms h; cases h; exact ⟨[], .nil, rfl⟩
    | cons i r ih =>
      intro ms h
      unfold allMessages at h
      cases h1 : itemMessages cls i with
      | none => rw [h1] at h; cases h
      | some a =>
        cases h2 : allMessages cls r with
        | none => rw [h1, h2] at h; cases h
        | some b =>
          rw [h1, h2] at h; cases h
          obtain ⟨parts, hp, he⟩ := ih b h2
          exact ⟨_ :: parts, .cons ((stands_iff _ _ _).2 ⟨a, h1, rfl⟩) hp, by simp [he]⟩
  have hnone : allMessages cls items = none ↔ ∃ i ∈ items, itemMessages cls i = none := by
    clear hall
    induction items with
    | nil => simp [allMessages]
    | cons i r ih =>
      unfold allMessages
      cases h1 : itemMessages cls i with
      | none => simp [h1]
      | some a =>
        cases h2 : allMessages cls r with
        | none =>
          obtain ⟨j, hj, h3⟩ := ih.1 h2
          simp only [true_iff]
          exact ⟨j, by simp [hj], h3⟩
        | some b =>
          simp only [reduceCtorEq, false_iff, not_exists, not_and]
          intro j hj
          rcases List.mem_cons.1 hj with rfl | hj
          · rw [h1]; simp
          · intro h3
            have := ih.2 ⟨j, hj, h3⟩
            rw [h2] at this; cases this
  constructor
  · intro ms h
    obtain ⟨ms', h1, rfl⟩ := Option.map_eq_some_iff.1 h
    obtain ⟨parts, hp, he⟩ := hall ms' h1
    refine ⟨⟨parts, hp, ?_⟩, ?_⟩
    · rw [← he]; simp only [List.map_map]; rfl
    · intro m hm
      obtain ⟨x, -, rfl⟩ := List.mem_map.1 hm
      cases cls <;> rfl
  · unfold mkField
    rw [Option.map_eq_none_iff, hnone]
    refine exists_congr fun i => and_congr_right fun _ => ?_
    constructor
    · rintro h ⟨xs, hx⟩
      obtain ⟨ms, h1, -⟩ := (stands_iff _ _ _).1 hx
      rw [h] at h1; cases h1
    · intro h
      cases h1 : itemMessages cls i with
      | none => rfl
      | some ms => exact absurd ⟨_, (stands_iff _ _ _).2 ⟨ms, h1, rfl⟩⟩ h

/-! ## The hypotheses are met -/

/-- The errors of two nested fields and a list item. -/
def sampleTree : Tree :=
  .node [(.str "a", .field (some .conv) [⟨some .conv, "required", none⟩]),
    (.str "b", .node [(.int 1, .field (some .valid) [⟨some .valid, "min", none⟩, ⟨some .valid, "regex", some (.text "x")⟩])])]

theorem sampleTree_ok : WF sampleTree ∧ NoText sampleTree := by
  constructor
  · refine .node (by unfold Dict.Nodup; decide) ?_
    intro kv hkv
    simp only [List.mem_cons, List.not_mem_nil, or_false] at hkv
    rcases hkv with rfl | rfl
    · exact .field
    · refine .node (by unfold Dict.Nodup; decide) ?_
      intro kv hkv
      simp only [List.mem_cons, List.not_mem_nil, or_false] at hkv
      subst hkv
      exact .field
  · refine .node ?_
    intro kv hkv
    simp only [List.mem_cons, List.not_mem_nil, or_false] at hkv
    rcases hkv with rfl | rfl
    · exact .field
    · refine .node ?_
      intro kv hkv
      simp only [List.mem_cons, List.not_mem_nil, or_false] at hkv
      subst hkv
      exact .field

example : eqT sampleTree sampleTree = some true := (C68_equivalence _ _ _ sampleTree_ok.1 sampleTree_ok.1 sampleTree_ok.1 sampleTree_ok.2 sampleTree_ok.2 sampleTree_ok.2).1
example : texts (toPrim sampleTree) = 3 := by rw [C69_messages_preserved]; rfl
example : PrimAt (toPrim (raiseTree (.node [(.str "a", .node [(.int 0, .leaf .conv ["required"])])])).flat) [.str "a", .int 0] (.list [.text "required"]) :=
  (C69_structure_preserved _ _ _ (by simp)).2 ⟨_, .down rfl (.down rfl .here), rfl⟩
example : mkField .valid [.text "x", .error .stop [⟨some .valid, "y", none⟩]] =
    some [⟨some .valid, "x", none⟩, ⟨some .valid, "y", none⟩] := rfl

example : eqT (.field none [⟨some .valid, "a", none⟩]) (.node [(.int 0, .text "a")]) = some true :=
  (C68_equality_any _ _ .field (.node (by unfold Dict.Nodup; decide) (by
    intro kv h; simp only [List.mem_cons, List.not_mem_nil, or_false] at h; subst h; exact .text))).2
    (.fieldNode rfl (by
      intro i m h
      cases i with
      | zero => cases h; rfl
      | succ i => simp at h))
example : eqT sampleTree (.node []) = some true ∨ eqT sampleTree (.node []) = some false :=
  C68_comparison_total _ _ sampleTree_ok.1 (.node (by intro k v w _ h; cases h))
example : PrimAt (toPrim sampleTree) [.str "b", .int 1] (.list [.text "min", .text "regex: \"x\""]) :=
  ((C69_report sampleTree [.str "b", .int 1]).2.1 _).2
    ⟨_, _, ["min", "regex: \"x\""], .down rfl (.down rfl .here), rfl, .cons .bare (.cons (.text (by decide)) .nil)⟩

end Verif.Lib
