import Verif.Lib.Fresh
import Mathlib.Data.List.Nodup

/-!
# Objects: what is reachable, what it looks like, and who owns it
-/
namespace Verif.Fresh
open Verif

/-- A list, a dict or an instance: something that can be changed in place. -/
def Mutable (h : Heap) (a : Nat) : Prop := ∃ o, h[a]? = some o ∧ o.isAtom = false

/-- Following the references at the positions `p` from the object `r` one comes to the object `a`. -/
inductive At (h : Heap) : Nat → List Nat → Nat → Prop
  | here (r : Nat) : At h r [] r
  | down {r i k a : Nat} {o : Obj} {p : List Nat} (ho : h[r]? = some o) (hk : o.kids[i]? = some k) (ha : At h k p a) : At h r (i :: p) a

/-- What an object looks like: the tree below it. -/
inductive Tree
  | cut
  | gone
  | atom (v : Val)
  | list (items : List Tree)
  | dict (es : List (Key × Tree))
  | inst (cls : String) (es : List (Key × Tree))

/-- What the object at address `a` looks like down to depth `n`. -/
def view : Nat → Heap → Nat → Tree
  | 0, _, _ => .cut
  | n + 1, h, a =>
    match h[a]? with
    | none => .gone
    | some (.atom v) => .atom v
    | some (.list xs) => .list (xs.map (view n h))
    | some (.dict es) => .dict (es.map fun e => (e.1, view n h e.2))
    | some (.inst c es) => .inst c (es.map fun e => (e.1, view n h e.2))

/-- Every reference leads to an object. -/
def Closed (h : Heap) : Prop := ∀ o ∈ h, ∀ k ∈ o.kids, k < h.length

/-- The default objects of the classes exist. -/
def Env.Ok (env : Env) (h : Heap) : Prop :=
  ∀ cls fds, env.fields cls = some fds → ∀ fd ∈ fds,
    match fd.dflt with
    | .none => True
    | .obj a => a < h.length
    | .call o => ∀ k ∈ o.kids, k < h.length

/-! ## Ownership -/

/-- Below `r` the objects form a tree down to the atoms, and the mutable ones are those of `L`. -/
inductive Owns (h : Heap) : Nat → List Nat → Prop
  | atom {r : Nat} {v : Val} (ho : h[r]? = some (.atom v)) : Owns h r []
  | node {r : Nat} {o : Obj} (ho : h[r]? = some o) (hm : o.isAtom = false) (G : List (Nat × List Nat)) (hk : o.kids = G.map Prod.fst)
      (hG : ∀ e ∈ G, Owns h e.1 e.2) : Owns h r (r :: (G.map Prod.snd).flatten)

theorem Owns.lt {h : Heap} {r : Nat} {L : List Nat} (o : Owns h r L) : r < h.length := by
  cases o with
  | atom ho => exact (List.getElem?_eq_some_iff.1 ho).1
  | node ho => exact (List.getElem?_eq_some_iff.1 ho).1

theorem Owns.mem_lt {h : Heap} {r : Nat} {L : List Nat} (o : Owns h r L) : ∀ a ∈ L, a < h.length := by
  induction o with
  | atom _ => intro a ha; simp at ha
  | node ho hm G hk hG ih =>
    intro a ha
    simp only [List.mem_cons, List.mem_flatten, List.mem_map] at ha
    rcases ha with rfl | ⟨l, ⟨e, he, rfl⟩, hal⟩
    · exact (List.getElem?_eq_some_iff.1 ho).1
    · exact ih e he a hal

theorem Owns.ext {h : Heap} {r : Nat} {L : List Nat} (o : Owns h r L) (new : Heap) : Owns (h ++ new) r L := by
  induction o with
  | @atom r v ho =>
    refine .atom (v := v) ?_
    rw [List.getElem?_append_left (List.getElem?_eq_some_iff.1 ho).1]; exact ho
  | node ho hm G hk hG ih =>
    refine .node ?_ hm G hk ih
    rw [List.getElem?_append_left (List.getElem?_eq_some_iff.1 ho).1]; exact ho

/-- From what is owned one only comes to what is owned. -/
theorem Owns.at {h : Heap} {r : Nat} {L : List Nat} (o : Owns h r L) : ∀ {p : List Nat} {a : Nat}, At h r p a → Mutable h a → a ∈ L := by
  induction o with
  | atom ho =>
    intro p a hat ⟨o, ho', hm⟩
    cases hat with
    | here => rw [ho] at ho'; cases ho'; simp [Obj.isAtom] at hm
    | down ho2 hk _ => rw [ho] at ho2; cases ho2; simp [Obj.kids] at hk
  | node ho hm G hk hG ih =>
    intro p a hat hmu
    cases hat with
    | here => simp
    | @down _ i _ _ _ _ ho2 hk2 hat' =>
      rw [ho] at ho2; cases ho2
      rw [hk, List.getElem?_map] at hk2
      cases hg : G[i]? with
      | none => rw [hg] at hk2; cases hk2
      | some e =>
        rw [hg] at hk2
        cases hk2
        have he := List.mem_of_getElem? hg
        have := ih e he hat' hmu
        exact List.mem_cons_of_mem _ (List.mem_flatten.2 ⟨e.2, List.mem_map.2 ⟨e, he, rfl⟩, this⟩)

theorem flatten_disjoint {G : List (Nat × List Nat)} (hn : ((G.map Prod.snd).flatten).Nodup) {i j : Nat} {e f : Nat × List Nat} (hi : G[i]? = some e)
    (hj : G[j]? = some f) {a : Nat} (he : a ∈ e.2) (hf : a ∈ f.2) : i = j := by
  induction G generalizing i j with
  | nil => simp at hi
  | cons g G ih =>
    simp only [List.map_cons, List.flatten_cons, List.nodup_append] at hn
    obtain ⟨hn1, hn2, hd⟩ := hn
    have key : ∀ (k : Nat) (x : Nat × List Nat), G[k]? = some x → a ∈ x.2 → a ∈ ((G.map Prod.snd).flatten) := fun k x hk hx =>
      List.mem_flatten.2 ⟨x.2, List.mem_map.2 ⟨x, List.mem_of_getElem? hk, rfl⟩, hx⟩
    cases i with
    | zero =>
      cases j with
      | zero => rfl
      | succ j =>
        simp only [List.getElem?_cons_zero, Option.some.injEq] at hi
        simp only [List.getElem?_cons_succ] at hj
        subst hi
        exact absurd rfl (hd a he a (key j f hj hf))
    | succ i =>
      cases j with
      | zero =>
        simp only [List.getElem?_cons_zero, Option.some.injEq] at hj
        simp only [List.getElem?_cons_succ] at hi
        subst hj
        exact absurd rfl (hd a hf a (key i e hi he))
      | succ j =>
        simp only [List.getElem?_cons_succ] at hi hj
        rw [ih hn2 hi hj]

/-- Nothing owned is reached in two ways. -/
theorem Owns.unique {h : Heap} {r : Nat} {L : List Nat} (o : Owns h r L) : L.Nodup → ∀ {p q : List Nat} {a : Nat}, At h r p a → At h r q a → Mutable h a → p = q := by
  induction o with
  | atom ho =>
    intro _ p q a hp hq ⟨o, ho', hm⟩
    cases hp with
    | here => rw [ho] at ho'; cases ho'; simp [Obj.isAtom] at hm
    | down ho2 hk _ => rw [ho] at ho2; cases ho2; simp [Obj.kids] at hk
  | @node r o ho hm G hk hG ih =>
    intro hn p q a hp hq hmu
    obtain ⟨hr, hn⟩ := List.nodup_cons.1 hn
    have key : ∀ {i k : Nat} {o' : Obj} {t : List Nat}, h[r]? = some o' → o'.kids[i]? = some k → At h k t a → ∃ e : Nat × List Nat, G[i]? = some e ∧ e.1 = k ∧ a ∈ e.2 := by
      intro i k o' t ho2 hk2 hat
      rw [ho] at ho2; cases ho2
      rw [hk, List.getElem?_map] at hk2
      cases hg : G[i]? with
      | none => rw [hg] at hk2; cases hk2
      | some e =>
        rw [hg] at hk2
        have hek : e.1 = k := by simpa using hk2
        refine ⟨e, rfl, hek, ?_⟩
        exact (hG e (List.mem_of_getElem? hg)).at (hek ▸ hat) hmu
    have inn : ∀ (i : Nat) (e : Nat × List Nat), G[i]? = some e → a ∈ e.2 → a ∈ (G.map Prod.snd).flatten := fun i e hg he =>
      List.mem_flatten.2 ⟨e.2, List.mem_map.2 ⟨e, List.mem_of_getElem? hg, rfl⟩, he⟩
    cases hp with
    | here =>
      cases hq with
      | here => rfl
      | down ho2 hk2 hat =>
        obtain ⟨e, hg, -, he⟩ := key ho2 hk2 hat
        exact absurd (inn _ e hg he) hr
    | down ho1 hk1 hat1 =>
      cases hq with
      | here =>
        obtain ⟨e, hg, -, he⟩ := key ho1 hk1 hat1
        exact absurd (inn _ e hg he) hr
      | down ho2 hk2 hat2 =>
        obtain ⟨e, hg, hek, he⟩ := key ho1 hk1 hat1
        obtain ⟨f, hg2, hfk, hf⟩ := key ho2 hk2 hat2
        have hij := flatten_disjoint hn hg hg2 he hf
        subst hij
        rw [hg] at hg2
        cases hg2
        have hem := List.mem_of_getElem? hg
        have hne : e.2.Nodup := (List.nodup_flatten.1 hn).1 e.2 (List.mem_map.2 ⟨e, hem, rfl⟩)
        have hat1' : At h e.1 _ a := hek.symm ▸ hat1
        have hat2' : At h e.1 _ a := hfk.symm ▸ hat2
        rw [ih e hem hne hat1' hat2' hmu]

theorem get_set_ne {h : Heap} {a r : Nat} {o x : Obj} (ho : h[r]? = some o) (hne : a ≠ r) : (h.set a x)[r]? = some o := by
  rw [List.getElem?_set_ne hne]; exact ho

/-- A change of something mutable that is not owned is not seen. -/
theorem Owns.set {h : Heap} {r : Nat} {L : List Nat} (o : Owns h r L) {a : Nat} (hm : Mutable h a) (ha : a ∉ L) (x : Obj) : Owns (h.set a x) r L := by
  induction o with
  | atom ho =>
    refine .atom (get_set_ne ho ?_)
    rintro rfl
    obtain ⟨o', ho', hm'⟩ := hm
    rw [ho] at ho'; cases ho'; simp [Obj.isAtom] at hm'
  | node ho hm' G hk hG ih =>
    rw [List.mem_cons, not_or] at ha
    refine .node (get_set_ne ho ha.1) hm' G hk fun e he => ih e he fun hin => ha.2 (List.mem_flatten.2 ⟨e.2, List.mem_map.2 ⟨e, he, rfl⟩, hin⟩)

/-- One level of a view. -/
def view1 (f : Nat → Tree) : Obj → Tree
  | .atom v => .atom v
  | .list xs => .list (xs.map f)
  | .dict es => .dict (es.map fun e => (e.1, f e.2))
  | .inst c es => .inst c (es.map fun e => (e.1, f e.2))

theorem view_some (n : Nat) {h : Heap} {a : Nat} {o : Obj} (ho : h[a]? = some o) :
    view (n + 1) h a = view1 (view n h) o := by
  rw [view, ho]; cases o <;> rfl

/-- The view of an object is decided by the object and the views of what it refers to. -/
theorem view_congr (n : Nat) {h h' : Heap} {a : Nat} {o : Obj} (ho : h[a]? = some o) (ho' : h'[a]? = some o) (hk : ∀ k ∈ o.kids, view n h' k = view n h k) :
    view (n + 1) h' a = view (n + 1) h a := by
  rw [view_some n ho, view_some n ho']
  cases o with
  | atom v => rfl
  | list xs => exact congrArg Tree.list (List.map_congr_left hk)
  | dict es =>
    refine congrArg Tree.dict (List.map_congr_left fun e he => ?_)
    rw [hk e.2 (List.mem_map.2 ⟨e, he, rfl⟩)]
  | inst c es =>
    refine congrArg (Tree.inst c) (List.map_congr_left fun e he => ?_)
    rw [hk e.2 (List.mem_map.2 ⟨e, he, rfl⟩)]

theorem Owns.view {h h' : Heap} {r : Nat} {L : List Nat} (o : Owns h r L) (o' : ∀ a, (∃ v, h[a]? = some (.atom v)) ∨ a ∈ L → h'[a]? = h[a]?) :
    ∀ n, view n h' r = view n h r := by
  induction o with
  | @atom r v ho =>
    intro n
    cases n with
    | zero => rfl
    | succ n => exact view_congr n ho ((o' r (.inl ⟨v, ho⟩)).trans ho) (fun k hk => by simp [Obj.kids] at hk)
  | @node r o ho hm' G hk hG ih =>
    intro n
    cases n with
    | zero => rfl
    | succ n =>
      refine view_congr n ho ((o' r (.inr (List.mem_cons_self ..))).trans ho) fun k hkk => ?_
      rw [hk, List.mem_map] at hkk
      obtain ⟨e, he, rfl⟩ := hkk
      refine ih e he (fun a ha => o' a (ha.imp id fun hin => ?_)) n
      exact List.mem_cons_of_mem _ (List.mem_flatten.2 ⟨e.2, List.mem_map.2 ⟨e, he, rfl⟩, hin⟩)

theorem Owns.view_set {h : Heap} {r : Nat} {L : List Nat} (o : Owns h r L) {a : Nat} (hm : Mutable h a) (ha : a ∉ L) (x : Obj) (n : Nat) :
    Fresh.view n (h.set a x) r = Fresh.view n h r := by
  refine o.view (fun b hb => List.getElem?_set_ne ?_) n
  rintro rfl
  rcases hb with ⟨v, hv⟩ | hb
  · obtain ⟨o', ho', hm'⟩ := hm
    rw [hv] at ho'; cases ho'; simp [Obj.isAtom] at hm'
  · exact ha hb

theorem Owns.view_ext {h : Heap} {r : Nat} {L : List Nat} (o : Owns h r L) (new : Heap) (n : Nat) : Fresh.view n (h ++ new) r = Fresh.view n h r := by
  refine o.view (fun b hb => List.getElem?_append_left ?_) n
  rcases hb with ⟨v, hv⟩ | hb
  · exact (List.getElem?_eq_some_iff.1 hv).1
  · exact o.mem_lt b hb

/-- What existed before is not changed by changing something newer. -/
theorem view_old {h h' : Heap} (hc : Closed h) (hs : ∀ a, a < h.length → h'[a]? = h[a]?) : ∀ (n : Nat) {a : Nat}, a < h.length → view n h' a = view n h a
  | 0, _, _ => rfl
  | n + 1, a, ha => by
    obtain ⟨o, ho⟩ : ∃ o, h[a]? = some o := ⟨_, List.getElem?_eq_getElem ha⟩
    refine view_congr n ho ((hs a ha).trans ho) fun k hk => view_old hc hs n (hc o (List.mem_of_getElem? ho) k hk)

/-! ## Results -/

/-- The heap has only grown, everything in it exists, and (if `S`) the result is a tree of new objects. -/
structure Good (S : Prop) (h : Heap) (p : Heap × Res) : Prop where
  ext : ∃ new, p.1 = h ++ new
  closed : Closed p.1
  ok : ∀ b, p.2 = .ok b → b < p.1.length ∧ (S → ∃ L, Owns p.1 b L ∧ L.Nodup ∧ ∀ a ∈ L, h.length ≤ a)
  data : ∀ b, p.2 = .data b → b < p.1.length

/-- The same for the references of a container that is being built. -/
structure GoodL (S : Prop) (h0 h : Heap) (d : List Nat) : Prop where
  lt : ∀ a ∈ d, a < h.length
  own : S → ∃ G : List (Nat × List Nat), d = G.map Prod.fst ∧ (∀ e ∈ G, Owns h e.1 e.2) ∧ ((G.map Prod.snd).flatten).Nodup ∧
    ∀ a ∈ (G.map Prod.snd).flatten, h0.length ≤ a

/-- `f` behaves so on every object of a heap that extends `H`. -/
def GoodFn (S : Prop) (H : Heap) (f : Heap → Nat → Heap × Res) : Prop :=
  ∀ h a, (∃ new, h = H ++ new) → Closed h → a < h.length → Good S h (f h a)

theorem len_le {h h' : Heap} (he : ∃ new, h' = h ++ new) : h.length ≤ h'.length := by
  obtain ⟨new, rfl⟩ := he; simp

theorem ext_trans {a b c : Heap} (h1 : ∃ n, b = a ++ n) (h2 : ∃ n, c = b ++ n) : ∃ n, c = a ++ n := by
  obtain ⟨n, rfl⟩ := h1; obtain ⟨m, rfl⟩ := h2; exact ⟨n ++ m, by simp⟩

theorem ext_self (a : Heap) : ∃ n, a = a ++ n := ⟨[], by simp⟩

theorem ext_add (a n : Heap) : ∃ m, a ++ n = a ++ m := ⟨n, rfl⟩

theorem closed_add {h : Heap} (hc : Closed h) {o : Obj} (ho : ∀ k ∈ o.kids, k < h.length) : Closed (h ++ [o]) := by
  intro x hx k hk
  rw [List.length_append, List.length_singleton]
  rcases List.mem_append.1 hx with hx | hx
  · exact Nat.lt_succ_of_lt (hc x hx k hk)
  · rw [List.mem_singleton] at hx; subst hx; exact Nat.lt_succ_of_lt (ho k hk)

theorem good_err (S : Prop) {h h' : Heap} (he : ∃ new, h' = h ++ new) (hc : Closed h') : Good S h (h', .err) :=
  ⟨he, hc, fun _ hb => (by cases hb), fun _ hb => (by cases hb)⟩

theorem good_mono {S : Prop} {h0 h : Heap} {p : Heap × Res} (he : ∃ new, h = h0 ++ new) (g : Good S h p) : Good S h0 p :=
  ⟨ext_trans he g.ext, g.closed, fun b hb => ⟨(g.ok b hb).1, fun hS => by
    obtain ⟨L, hL, hn, hl⟩ := (g.ok b hb).2 hS
    exact ⟨L, hL, hn, fun a ha => Nat.le_trans (len_le he) (hl a ha)⟩⟩, g.data⟩

theorem GoodL.nil (S : Prop) (h0 h : Heap) : GoodL S h0 h [] :=
  ⟨fun a ha => by simp at ha, fun _ => ⟨[], rfl, fun e he => by simp at he, by simp, fun a ha => by simp at ha⟩⟩

theorem GoodL.mono {S T : Prop} {h0 h : Heap} {d : List Nat} (hTS : T → S) (g : GoodL S h0 h d) : GoodL T h0 h d := ⟨g.lt, fun t => g.own (hTS t)⟩

theorem GoodL.grow {S : Prop} {h0 h h' : Heap} {d : List Nat} (g : GoodL S h0 h d) (he : ∃ new, h' = h ++ new) : GoodL S h0 h' d := by
  obtain ⟨new, rfl⟩ := he
  refine ⟨fun a ha => Nat.lt_of_lt_of_le (g.lt a ha) (by simp), fun hS => ?_⟩
  obtain ⟨G, hd, ho, hn, hl⟩ := g.own hS
  exact ⟨G, hd, fun e he => (ho e he).ext new, hn, hl⟩

/-- A container made of such references. -/
theorem good_new {S : Prop} {h0 h : Heap} (he : ∃ new, h = h0 ++ new) (hc : Closed h) {o : Obj} (hm : o.isAtom = false) (g : GoodL S h0 h o.kids) : Good S h0 (h.new o) := by
  refine ⟨ext_trans he (ext_add h [o]), closed_add hc g.lt, fun b hb => ?_, fun b hb => by cases hb⟩
  simp only [Heap.new, Res.ok.injEq] at hb
  subst hb
  refine ⟨by simp [Heap.new], fun hS => ?_⟩
  obtain ⟨G, hd, ho, hn, hl⟩ := g.own hS
  have hlt : ∀ a ∈ (G.map Prod.snd).flatten, a < h.length := by
    intro a ha
    simp only [List.mem_flatten, List.mem_map] at ha
    obtain ⟨l, ⟨e, he, rfl⟩, hal⟩ := ha
    exact (ho e he).mem_lt a hal
  refine ⟨_, .node (by simp [Heap.new]) hm G hd (fun e he => (ho e he).ext [o]), List.nodup_cons.2 ⟨fun hin => Nat.lt_irrefl _ (hlt _ hin), hn⟩, fun a ha => ?_⟩
  rcases List.mem_cons.1 ha with rfl | ha
  · exact len_le he
  · exact hl a ha

theorem good_atom {S : Prop} {h : Heap} (hc : Closed h) (v : Val) : Good S h (h.new (.atom v)) := by
  refine ⟨ext_add h _, closed_add hc (fun k hk => by simp [Obj.kids] at hk), fun b hb => ?_, fun b hb => by cases hb⟩
  simp only [Heap.new, Res.ok.injEq] at hb
  subst hb
  exact ⟨by simp [Heap.new], fun _ => ⟨[], .atom (v := v) (by simp [Heap.new]), List.nodup_nil, fun a ha => by simp at ha⟩⟩

theorem isAtom_of_isNone {o : Obj} (h : o.isNone = true) : o.isAtom = true := by
  cases o with
  | atom v => rfl
  | _ => cases h

theorem obj_of_lt {h : Heap} {a : Nat} (ha : a < h.length) : h[a]? = some (h.obj a) := by
  rw [Heap.obj, List.getElem?_eq_getElem ha]; rfl

/-- An object that is handed back as it is. -/
theorem good_keep {S : Prop} {h : Heap} (hc : Closed h) {a : Nat} (ha : a < h.length) (hat : S → (h.obj a).isAtom = true) : Good S h (h, .ok a) := by
  refine ⟨ext_self h, hc, fun b hb => ?_, fun b hb => by cases hb⟩
  cases hb
  refine ⟨ha, fun hS => ⟨[], ?_, List.nodup_nil, fun a ha => by simp at ha⟩⟩
  have ho := obj_of_lt ha
  have hat := hat hS
  generalize h.obj a = o at ho hat
  cases o with
  | atom v => exact .atom ho
  | _ => cases hat

/-! ### Adding one reference -/

theorem GoodL.cons {S : Prop} {h0 h h' : Heap} {b : Nat} {bs : List Nat} (hb : b < h.length ∧ (S → ∃ L, Owns h b L ∧ L.Nodup ∧ ∀ a ∈ L, h0.length ≤ a))
    (he : ∃ new, h' = h ++ new) (g : GoodL S h h' bs) (h0h : h0.length ≤ h.length) : GoodL S h0 h' (b :: bs) := by
  refine ⟨fun a ha => ?_, fun hS => ?_⟩
  · rcases List.mem_cons.1 ha with rfl | ha
    · exact Nat.lt_of_lt_of_le hb.1 (len_le he)
    · exact g.lt a ha
  · obtain ⟨L, hL, hn, hl⟩ := hb.2 hS
    obtain ⟨G, hd, ho, hnG, hlG⟩ := g.own hS
    obtain ⟨new, rfl⟩ := he
    refine ⟨(b, L) :: G, by rw [hd]; rfl, fun e he => ?_, ?_, fun a ha => ?_⟩
    · rcases List.mem_cons.1 he with rfl | he
      · exact hL.ext new
      · exact ho e he
    · simp only [List.map_cons, List.flatten_cons, List.nodup_append]
      exact ⟨hn, hnG, fun x hx y hy hxy => by
        subst hxy
        exact absurd (hL.mem_lt x hx) (Nat.not_lt.2 (hlG x hy))⟩
    · simp only [List.map_cons, List.flatten_cons, List.mem_append] at ha
      rcases ha with ha | ha
      · exact hl a ha
      · exact Nat.le_trans h0h (hlG a ha)

/-- Putting a newer object under a key. -/
theorem own_set {h : Heap} {lo : Nat} {b : Nat} {L : List Nat} (hL : Owns h b L) (hn : L.Nodup) (k : Key) :
    ∀ (d : List (Key × Nat)) (G : List (Nat × List Nat)), d.map Prod.snd = G.map Prod.fst → (∀ e ∈ G, Owns h e.1 e.2) →
      ((G.map Prod.snd).flatten).Nodup → (∀ a ∈ (G.map Prod.snd).flatten, lo ≤ a ∧ a ∉ L) →
      ∃ G' : List (Nat × List Nat), (Dict.set d k b).map Prod.snd = G'.map Prod.fst ∧ (∀ e ∈ G', Owns h e.1 e.2) ∧
        ((G'.map Prod.snd).flatten).Nodup ∧ (∀ a ∈ (G'.map Prod.snd).flatten, a ∈ L ∨ a ∈ (G.map Prod.snd).flatten)
  | [], G, hd, hG, hnG, hlo => by
    cases G with
    | cons g G => simp at hd
    | nil => exact ⟨[(b, L)], rfl, fun e he => by rw [List.mem_singleton] at he; subst he; exact hL, by simpa using hn, fun a ha => .inl (by simpa using ha)⟩
  | (k', x) :: d, G, hd, hG, hnG, hlo => by
    cases G with
    | nil => simp at hd
    | cons g G =>
      simp only [List.map_cons, List.cons.injEq] at hd
      simp only [List.map_cons, List.flatten_cons, List.nodup_append] at hnG
      obtain ⟨hn1, hn2, hdis⟩ := hnG
      by_cases hk : k' = k
      · refine ⟨(b, L) :: G, ?_, fun e he => ?_, ?_, fun a ha => ?_⟩
        · rw [Dict.set, if_pos hk]; simp [hd.2]
        · rcases List.mem_cons.1 he with rfl | he
          · exact hL
          · exact hG e (List.mem_cons_of_mem _ he)
        · simp only [List.map_cons, List.flatten_cons, List.nodup_append]
          exact ⟨hn, hn2, fun y hy z hz hyz => (hlo z (by simp only [List.map_cons, List.flatten_cons, List.mem_append]; exact .inr hz)).2 (hyz ▸ hy)⟩
        · simp only [List.map_cons, List.flatten_cons, List.mem_append] at ha ⊢
          rcases ha with ha | ha
          · exact .inl ha
          · exact .inr (.inr ha)
      · obtain ⟨G', hd', hG', hn', hl'⟩ := own_set (lo := lo) hL hn k d G hd.2 (fun e he => hG e (List.mem_cons_of_mem _ he)) hn2
          (fun a ha => hlo a (by simp only [List.map_cons, List.flatten_cons, List.mem_append]; exact .inr ha))
        refine ⟨g :: G', ?_, fun e he => ?_, ?_, fun a ha => ?_⟩
        · rw [Dict.set, if_neg hk]; simp [hd.1, hd']
        · rcases List.mem_cons.1 he with rfl | he
          · exact hG e (List.mem_cons_self ..)
          · exact hG' e he
        · simp only [List.map_cons, List.flatten_cons, List.nodup_append]
          refine ⟨hn1, hn', fun y hy z hz hyz => ?_⟩
          subst hyz
          rcases hl' y hz with hz | hz
          · exact (hlo y (by simp only [List.map_cons, List.flatten_cons, List.mem_append]; exact .inl hy)).2 hz
          · exact hdis y hy y hz rfl
        · simp only [List.map_cons, List.flatten_cons, List.mem_append] at ha ⊢
          rcases ha with ha | ha
          · exact .inr (.inl ha)
          · exact (hl' a ha).imp id .inr

theorem mem_set_snd {d : List (Key × Nat)} {k : Key} {b a : Nat} (h : a ∈ (Dict.set d k b).map Prod.snd) : a = b ∨ a ∈ d.map Prod.snd := by
  induction d with
  | nil => simpa [Dict.set] using h
  | cons e d ih =>
    obtain ⟨k', x⟩ := e
    rw [Dict.set] at h
    split at h
    · simp only [List.map_cons, List.mem_cons] at h ⊢
      exact h.imp id .inr
    · simp only [List.map_cons, List.mem_cons] at h ⊢
      rcases h with h | h
      · exact .inr (.inl h)
      · exact (ih h).imp id .inr

theorem GoodL.set {S : Prop} {h0 h h' : Heap} {b : Nat} {d : List (Key × Nat)} (g : GoodL S h0 h (d.map Prod.snd)) (he : ∃ new, h' = h ++ new) (h0h : h0.length ≤ h.length)
    (hb : b < h'.length ∧ (S → ∃ L, Owns h' b L ∧ L.Nodup ∧ ∀ a ∈ L, h.length ≤ a)) (k : Key) : GoodL S h0 h' ((Dict.set d k b).map Prod.snd) := by
  refine ⟨fun a ha => ?_, fun hS => ?_⟩
  · rcases mem_set_snd ha with rfl | ha
    · exact hb.1
    · exact Nat.lt_of_lt_of_le (g.lt a ha) (len_le he)
  · obtain ⟨L, hL, hn, hl⟩ := hb.2 hS
    obtain ⟨G, hd, ho, hnG, hlG⟩ := g.own hS
    obtain ⟨new, rfl⟩ := he
    have hlt : ∀ a ∈ (G.map Prod.snd).flatten, a < h.length := by
      intro a ha
      simp only [List.mem_flatten, List.mem_map] at ha
      obtain ⟨l, ⟨e, he, rfl⟩, hal⟩ := ha
      exact (ho e he).mem_lt a hal
    obtain ⟨G', hd', hG', hn', hl'⟩ := own_set (lo := h0.length) hL hn k d G hd (fun e he => (ho e he).ext new) hnG
      (fun a ha => ⟨hlG a ha, fun hin => absurd (hlt a ha) (Nat.not_lt.2 (hl a hin))⟩)
    refine ⟨G', hd', hG', hn', fun a ha => ?_⟩
    rcases hl' a ha with ha | ha
    · exact Nat.le_trans h0h (hl a ha)
    · exact hlG a ha

/-! ## The conversion -/

/-- Every object the type may hand back as it is, is immutable: no type keeps a mutable object (`BaseType`, `MultilingualStringType`, `GeoPointType` do), and a
polymorphic field is only met when validating (else it keeps an instance of an allowed class). -/
def Ty.Strict (c : Ctx) : Ty → Prop
  | .leaf cv _ => ∀ o, cv o = .keep → o.isAtom = true
  | .list t _ _ => t.Strict c
  | .dict t _ _ _ => t.Strict c
  | .model _ => True
  | .poly _ _ => c.validate = true

/-- … in all classes. -/
def Env.Strict (env : Env) (c : Ctx) : Prop := ∀ cls fds, env.fields cls = some fds → ∀ fd ∈ fds, fd.ty.Strict c

theorem good_checked {S : Prop} {h : Heap} {p : Heap × Res} (g : Good S h p) (valid : Heap → Nat → Bool) : Good S h (checked valid p) := by
  obtain ⟨h1, r⟩ := p
  cases r with
  | ok b =>
    rw [checked]
    split
    · exact g
    · exact good_err S g.ext g.closed
  | err => exact g
  | data q => exact g

theorem good_guard {S : Prop} {H : Heap} (c : Ctx) (req : Bool) (valid : Heap → Nat → Bool) {f : Heap → Nat → Heap × Res} (hf : GoodFn S H f) : GoodFn S H (guard c req valid f) := by
  intro h a he hc ha
  rw [guard]
  split
  · rename_i hn
    cases req with
    | true => exact good_err S (ext_self h) hc
    | false => exact good_keep hc ha fun _ => isAtom_of_isNone hn
  · split
    · exact good_checked (hf h a he hc ha) valid
    · exact hf h a he hc ha

theorem good_items {S : Prop} {H : Heap} {f : Heap → Nat → Heap × Res} (hf : GoodFn S H f) :
    ∀ (as : List Nat) (h : Heap), (∃ new, h = H ++ new) → Closed h → (∀ a ∈ as, a < h.length) →
      (∃ new, (convItems f h as).1 = h ++ new) ∧ Closed (convItems f h as).1 ∧ ∀ bs, (convItems f h as).2 = some bs → GoodL S h (convItems f h as).1 bs
  | [], h, _, hc, _ => ⟨ext_self h, hc, fun bs hbs => by cases hbs; exact GoodL.nil S h h⟩
  | a :: as, h, he, hc, ha => by
    have g := hf h a he hc (ha a (List.mem_cons_self ..))
    rw [convItems]
    rcases hp : f h a with ⟨h1, r⟩
    rw [hp] at g
    have ih := good_items hf as h1 (ext_trans he g.ext) g.closed
      (fun x hx => Nat.lt_of_lt_of_le (ha x (List.mem_cons_of_mem _ hx)) (len_le g.ext))
    cases r with
    | ok b =>
      dsimp only
      rcases hq : convItems f h1 as with ⟨h2, o⟩
      rw [hq] at ih
      obtain ⟨i1, i2, i3⟩ := ih
      cases o with
      | none => exact ⟨ext_trans g.ext i1, i2, fun bs hbs => by cases hbs⟩
      | some bs =>
        refine ⟨ext_trans g.ext i1, i2, fun bs' hbs => ?_⟩
        cases hbs
        exact GoodL.cons (g.ok b rfl) i1 (i3 bs rfl) (len_le g.ext)
    | err => exact ⟨ext_trans g.ext ih.1, ih.2.1, fun bs hbs => by cases hbs⟩
    | data p => exact ⟨ext_trans g.ext ih.1, ih.2.1, fun bs hbs => by cases hbs⟩

theorem good_entries {S : Prop} {H : Heap} {f : Heap → Nat → Heap × Res} (hf : GoodFn S H f) (ck : Key → Option Key) (h0 : Heap) :
    ∀ (es : List (Key × Nat)) (h : Heap) (d : List (Key × Nat)) (good : Bool), (∃ new, h = H ++ new) → (∃ new, h = h0 ++ new) → Closed h → (∀ e ∈ es, e.2 < h.length) →
      GoodL S h0 h (d.map Prod.snd) →
      (∃ new, (convEntries f ck h es d good).1 = h ++ new) ∧ Closed (convEntries f ck h es d good).1 ∧
        ∀ bs, (convEntries f ck h es d good).2 = some bs → GoodL S h0 (convEntries f ck h es d good).1 (bs.map Prod.snd)
  | [], h, d, good, _, _, hc, _, g => by
    refine ⟨ext_self h, hc, fun bs hbs => ?_⟩
    cases good with
    | true => cases hbs; exact g
    | false => cases hbs
  | (k, a) :: es, h, d, good, he, he0, hc, ha, gd => by
    have g := hf h a he hc (ha (k, a) (List.mem_cons_self ..))
    rw [convEntries]
    rcases hp : f h a with ⟨h1, r⟩
    rw [hp] at g
    have rest : ∀ (d' : List (Key × Nat)) (gd' : Bool), GoodL S h0 h1 (d'.map Prod.snd) → _ := fun d' gd' hd' =>
      good_entries hf ck h0 es h1 d' gd' (ext_trans he g.ext) (ext_trans he0 g.ext) g.closed
        (fun x hx => Nat.lt_of_lt_of_le (ha x (List.mem_cons_of_mem _ hx)) (len_le g.ext)) hd'
    cases r with
    | ok b =>
      dsimp only
      cases ck k with
      | none =>
        obtain ⟨i1, i2, i3⟩ := rest d false (gd.grow g.ext)
        exact ⟨ext_trans g.ext i1, i2, i3⟩
      | some k' =>
        obtain ⟨i1, i2, i3⟩ := rest (Dict.set d k' b) good (gd.set g.ext (len_le he0) (g.ok b rfl) k')
        exact ⟨ext_trans g.ext i1, i2, i3⟩
    | err =>
      obtain ⟨i1, i2, i3⟩ := rest d false (gd.grow g.ext)
      exact ⟨ext_trans g.ext i1, i2, i3⟩
    | data p =>
      obtain ⟨i1, i2, i3⟩ := rest d false (gd.grow g.ext)
      exact ⟨ext_trans g.ext i1, i2, i3⟩

/-- The default of the field exists. -/
def Fld.Ok (fd : Fld) (H : Heap) : Prop :=
  match fd.dflt with
  | .none => True
  | .obj a => a < H.length
  | .call o => ∀ k ∈ o.kids, k < H.length

theorem dflt_get {fd : Fld} {H h : Heap} (hd : fd.Ok H) (he : ∃ new, h = H ++ new) (hc : Closed h) :
    (∃ new, (fd.dflt.get h).1 = h ++ new) ∧ Closed (fd.dflt.get h).1 ∧ ∀ a, (fd.dflt.get h).2 = some a → a < (fd.dflt.get h).1.length := by
  unfold Fld.Ok at hd
  cases hf : fd.dflt with
  | none => exact ⟨ext_self h, hc, fun a ha => by cases ha⟩
  | obj x =>
    rw [hf] at hd
    exact ⟨ext_self h, hc, fun a ha => by cases ha; exact Nat.lt_of_lt_of_le hd (len_le he)⟩
  | call o =>
    rw [hf] at hd
    refine ⟨ext_add h [o], closed_add hc fun k hk => Nat.lt_of_lt_of_le (hd k hk) (len_le he), fun a ha => ?_⟩
    cases ha
    simp [Dflt.get]

theorem maybe_dflt {fd : Fld} {H h : Heap} (hd : fd.Ok H) (he : ∃ new, h = H ++ new) (hc : Closed h) (b : Bool) :
    (∃ new, (if b then fd.dflt.get h else (h, none)).1 = h ++ new) ∧ Closed (if b then fd.dflt.get h else (h, none)).1 ∧
      ∀ a, (if b then fd.dflt.get h else (h, none)).2 = some a → a < (if b then fd.dflt.get h else (h, none)).1.length := by
  cases b with
  | true => exact dflt_get hd he hc
  | false => exact ⟨ext_self h, hc, fun a ha => by cases ha⟩

theorem pick_mem {raw : List (Key × Nat)} : ∀ {ks : List Key} {a : Nat}, pick raw ks = some a → a ∈ raw.map Prod.snd
  | k :: ks, a, h => by
    rw [pick] at h
    cases hg : Dict.get? raw k with
    | none => rw [hg] at h; exact pick_mem h
    | some x =>
      rw [hg] at h; cases h
      exact List.mem_map.2 ⟨(k, a), Dict.mem_of_get? hg, rfl⟩

theorem good_source {c : Ctx} {fd : Fld} {raw : List (Key × Nat)} {H h : Heap} (hd : fd.Ok H) (he : ∃ new, h = H ++ new) (hc : Closed h)
    (hraw : ∀ a ∈ raw.map Prod.snd, a < h.length) :
    (∃ new, (source c fd raw h).1 = h ++ new) ∧ Closed (source c fd raw h).1 ∧ ∀ a, (source c fd raw h).2 = some a → a < (source c fd raw h).1.length := by
  rw [source]
  cases hp : pick raw fd.keys with
  | some a => exact ⟨ext_self h, hc, fun b hb => by cases hb; exact hraw a (pick_mem hp)⟩
  | none =>
    dsimp only
    obtain ⟨i1, i2, i3⟩ := maybe_dflt hd he hc c.defaults
    rcases hq : (if c.defaults then fd.dflt.get h else (h, none)) with ⟨h1, o⟩
    rw [hq] at i1 i2 i3
    cases o with
    | some a => exact ⟨i1, i2, i3⟩
    | none =>
      dsimp only
      split
      · exact ⟨ext_trans i1 (ext_add h1 _), closed_add i2 (fun k hk => by simp [Obj.kids] at hk), fun b hb => by cases hb; simp⟩
      · exact ⟨i1, i2, fun b hb => by cases hb⟩

theorem good_failed {S : Prop} {c : Ctx} {fd : Fld} {H h0 h : Heap} {d : List (Key × Nat)} (hd : fd.Ok H) (he : ∃ new, h = H ++ new) (hc : Closed h)
    (hlt : ∀ a ∈ d.map Prod.snd, a < h.length) :
    (∃ new, (convField.failed c fd h d).1 = h ++ new) ∧ Closed (convField.failed c fd h d).1 ∧ (convField.failed c fd h d).2.2 = false ∧
      GoodL (S ∧ false = true) h0 (convField.failed c fd h d).1 ((convField.failed c fd h d).2.1.map Prod.snd) := by
  rw [convField.failed]
  obtain ⟨i1, i2, i3⟩ := maybe_dflt hd he hc c.defaults
  rcases hq : (if c.defaults then fd.dflt.get h else (h, none)) with ⟨h1, o⟩
  rw [hq] at i1 i2 i3
  have hlt' : ∀ a ∈ d.map Prod.snd, a < h1.length := fun a ha => Nat.lt_of_lt_of_le (hlt a ha) (len_le i1)
  cases o with
  | none => exact ⟨i1, i2, rfl, ⟨hlt', fun hS => by cases hS.2⟩⟩
  | some a =>
    refine ⟨i1, i2, rfl, ⟨fun b hb => ?_, fun hS => by cases hS.2⟩⟩
    rcases mem_set_snd hb with rfl | hb
    · exact i3 b rfl
    · exact hlt' b hb

theorem good_field {S : Prop} {f : Ty → Heap → Nat → Heap × Res} {c : Ctx} {fd : Fld} {raw d : List (Key × Nat)} {H h0 h : Heap} (hf : GoodFn S H (f fd.ty))
    (hd : fd.Ok H) (he : ∃ new, h = H ++ new) (he0 : ∃ new, h = h0 ++ new) (hc : Closed h) (hraw : ∀ a ∈ raw.map Prod.snd, a < h.length) {good : Bool}
    (g : GoodL (S ∧ good = true) h0 h (d.map Prod.snd)) :
    (∃ new, (convField f c fd raw h d).1 = h ++ new) ∧ Closed (convField f c fd raw h d).1 ∧
      GoodL (S ∧ (good && (convField f c fd raw h d).2.2) = true) h0 (convField f c fd raw h d).1 ((convField f c fd raw h d).2.1.map Prod.snd) := by
  rw [convField]
  obtain ⟨i1, i2, i3⟩ := good_source (c := c) hd he hc hraw
  rcases hq : source c fd raw h with ⟨h1, o⟩
  rw [hq] at i1 i2 i3
  cases o with
  | none => exact ⟨i1, i2, (g.grow i1).mono fun hS => ⟨hS.1, by revert hS; cases good <;> simp⟩⟩
  | some a =>
    dsimp only
    have gg := good_guard c (fd.required && !c.partialOk) fd.valid hf h1 a (ext_trans he i1) i2 (i3 a rfl)
    rcases hr : guard c (fd.required && !c.partialOk) fd.valid (f fd.ty) h1 a with ⟨h2, r⟩
    rw [hr] at gg
    have e2 : ∃ new, h2 = h ++ new := ext_trans i1 gg.ext
    have fl := good_failed (S := S) (c := c) (h0 := h0) hd (ext_trans he e2) gg.closed (fun x hx => Nat.lt_of_lt_of_le (g.lt x hx) (len_le e2))
    cases r with
    | ok b =>
      refine ⟨e2, gg.closed, ?_⟩
      refine GoodL.set ((g.grow i1).mono fun hS => ⟨hS.1, by revert hS; cases good <;> simp⟩) gg.ext (len_le (ext_trans he0 i1)) ⟨(gg.ok b rfl).1, fun hS => ?_⟩ _
      exact (gg.ok b rfl).2 hS.1
    | err =>
      refine ⟨ext_trans e2 fl.1, fl.2.1, fl.2.2.2.mono fun hS => ?_⟩
      dsimp only at hS
      rw [fl.2.2.1] at hS
      revert hS; cases good <;> simp
    | data p =>
      refine ⟨ext_trans e2 fl.1, fl.2.1, ⟨fun x hx => ?_, fun hS => absurd hS.2 (by simp)⟩⟩
      rcases mem_set_snd hx with rfl | hx
      · exact Nat.lt_of_lt_of_le (gg.data x rfl) (len_le fl.1)
      · exact fl.2.2.2.lt x hx

theorem good_fields {S : Prop} {f : Ty → Heap → Nat → Heap × Res} {c : Ctx} {raw : List (Key × Nat)} {H h0 : Heap} :
    ∀ (fds : List Fld), (∀ fd ∈ fds, GoodFn S H (f fd.ty) ∧ fd.Ok H) → ∀ (h : Heap) (d : List (Key × Nat)) (good : Bool),
      (∃ new, h = H ++ new) → (∃ new, h = h0 ++ new) → Closed h → (∀ a ∈ raw.map Prod.snd, a < h.length) → GoodL (S ∧ good = true) h0 h (d.map Prod.snd) →
      (∃ new, (convFields f c raw fds h d good).1 = h ++ new) ∧ Closed (convFields f c raw fds h d good).1 ∧
        GoodL (S ∧ (convFields f c raw fds h d good).2.2 = true) h0 (convFields f c raw fds h d good).1 ((convFields f c raw fds h d good).2.1.map Prod.snd)
  | [], _, h, d, good, _, _, hc, _, g => ⟨ext_self h, hc, g⟩
  | fd :: fds, hfd, h, d, good, he, he0, hc, hraw, g => by
    obtain ⟨i1, i2, i3⟩ := good_field (c := c) (hfd fd (List.mem_cons_self ..)).1 (hfd fd (List.mem_cons_self ..)).2 he he0 hc hraw g
    rw [convFields]
    rcases hp : convField f c fd raw h d with ⟨h1, d1, g1⟩
    rw [hp] at i1 i2 i3
    dsimp only
    obtain ⟨j1, j2, j3⟩ := good_fields (c := c) (raw := raw) (h0 := h0) fds (fun x hx => hfd x (List.mem_cons_of_mem _ hx)) h1 d1 (good && g1) (ext_trans he i1) (ext_trans he0 i1) i2
      (fun a ha => Nat.lt_of_lt_of_le (hraw a ha) (len_le i1)) i3
    exact ⟨ext_trans i1 j1, j2, j3⟩

theorem good_model {S : Prop} {f : Ty → Heap → Nat → Heap × Res} {env : Env} {c : Ctx} {oo : Bool} {cls : String} {raw : List (Key × Nat)} {H h : Heap}
    (hf : ∀ fds, env.fields cls = some fds → ∀ fd ∈ fds, GoodFn S H (f fd.ty) ∧ fd.Ok H)
    (he : ∃ new, h = H ++ new) (hc : Closed h) (hraw : ∀ a ∈ raw.map Prod.snd, a < h.length) : Good S h (convModel f env c oo cls h raw) := by
  rw [convModel]
  cases hfs : env.fields cls with
  | none => exact good_err S (ext_self h) hc
  | some fds =>
    dsimp only
    obtain ⟨i1, i2, i3⟩ := good_fields (c := c) (raw := raw) (h0 := h) fds (hf fds hfs) h [] true he (ext_self h) hc hraw (GoodL.nil _ h h)
    rcases hp : convFields f c raw fds h [] true with ⟨h1, d, g⟩
    rw [hp] at i1 i2 i3
    cases g with
    | true =>
      have i3' : GoodL S h h1 (d.map Prod.snd) := i3.mono fun s => ⟨s, rfl⟩
      cases oo with
      | true => exact good_new i1 i2 (o := .inst cls d) rfl i3'
      | false => exact good_new i1 i2 (o := .dict d) rfl i3'
    | false =>
      refine ⟨ext_trans i1 (ext_add h1 _), closed_add i2 i3.lt, fun b hb => (by cases hb), fun b hb => ?_⟩
      cases hb
      simp

theorem closed_obj {h : Heap} (hc : Closed h) (a : Nat) : ∀ k ∈ (h.obj a).kids, k < h.length := by
  intro k hk
  rw [Heap.obj] at hk
  cases ho : h[a]? with
  | none => rw [ho] at hk; simp [Obj.kids] at hk
  | some o => rw [ho] at hk; exact hc o (List.mem_of_getElem? ho) k hk

/-- `conv` on any type; with `T`, a tree of new objects if all types are strict. -/
theorem good_conv (env : Env) (c : Ctx) (H : Heap) (henv : env.Ok H) (S : Prop) (hstrict : S → env.Strict c) :
    ∀ (n : Nat) (t : Ty), GoodFn (S ∧ t.Strict c) H (conv env c n t)
  | 0, t => fun h a _ hc _ => by rw [conv]; exact good_err _ (ext_self h) hc
  | n + 1, .leaf cv ex => fun h a _ hc ha => by
    rw [conv]
    cases hcv : cv (h.obj a) with
    | fail => exact good_err _ (ext_self h) hc
    | keep => exact good_keep hc ha fun hS => hS.2 _ hcv
    | make v => exact good_atom hc v
  | n + 1, .list t req val => fun h a he hc ha => by
    rw [conv]
    have hk := closed_obj hc a
    cases ho : h.obj a with
    | list xs =>
      dsimp only
      rw [ho] at hk
      obtain ⟨i1, i2, i3⟩ := good_items (good_guard c req val (good_conv env c H henv S hstrict n t)) xs h he hc hk
      rcases hp : convItems (guard c req val (conv env c n t)) h xs with ⟨h1, o⟩
      rw [hp] at i1 i2 i3
      cases o with
      | none => exact good_err _ i1 i2
      | some ys => exact good_new i1 i2 (o := .list ys) rfl (i3 ys rfl)
    | _ => exact good_err _ (ext_self h) hc
  | n + 1, .dict t req val ck => fun h a he hc ha => by
    rw [conv]
    have hk := closed_obj hc a
    cases ho : h.obj a with
    | dict es =>
      dsimp only
      rw [ho] at hk
      obtain ⟨i1, i2, i3⟩ := good_entries (good_guard c req val (good_conv env c H henv S hstrict n t)) ck h es h [] true he (ext_self h) hc
        (fun e he => hk e.2 (List.mem_map.2 ⟨e, he, rfl⟩)) (GoodL.nil _ h h)
      rcases hp : convEntries (guard c req val (conv env c n t)) ck h es [] true with ⟨h1, o⟩
      rw [hp] at i1 i2 i3
      cases o with
      | none => exact good_err _ i1 i2
      | some ys => exact good_new i1 i2 (o := .dict ys) rfl (i3 ys rfl)
    | _ => exact good_err _ (ext_self h) hc
  | n + 1, .model cls => fun h a he hc ha => by
    rw [conv]
    have hk := closed_obj hc a
    have ih : ∀ k fds, env.fields k = some fds → ∀ fd ∈ fds, GoodFn (S ∧ (Ty.model cls).Strict c) H (conv env c n fd.ty) ∧ fd.Ok H := fun k fds hfs fd hfd =>
      ⟨fun h' a' x y z => by
        have g := good_conv env c H henv S hstrict n fd.ty h' a' x y z
        exact ⟨g.ext, g.closed, fun b hb => ⟨(g.ok b hb).1, fun hS => (g.ok b hb).2 ⟨hS.1, hstrict hS.1 k fds hfs fd hfd⟩⟩, g.data⟩, henv k fds hfs fd hfd⟩
    cases ho : h.obj a with
    | inst k es =>
      dsimp only
      rw [ho] at hk
      split
      · exact good_model (fun fds hfs => ih k fds hfs) he hc hk
      · exact good_err _ (ext_self h) hc
    | dict es =>
      rw [ho] at hk
      exact good_model (fun fds hfs => ih cls fds hfs) he hc hk
    | _ => exact good_err _ (ext_self h) hc
  | n + 1, .poly cs sub => fun h a he hc ha => by
    rw [conv]
    have hk := closed_obj hc a
    have ih : ∀ k fds, env.fields k = some fds → ∀ fd ∈ fds, GoodFn (S ∧ (Ty.poly cs sub).Strict c) H (conv env c n fd.ty) ∧ fd.Ok H := fun k fds hfs fd hfd =>
      ⟨fun h' a' x y z => by
        have g := good_conv env c H henv S hstrict n fd.ty h' a' x y z
        exact ⟨g.ext, g.closed, fun b hb => ⟨(g.ok b hb).1, fun hS => (g.ok b hb).2 ⟨hS.1, hstrict hS.1 k fds hfs fd hfd⟩⟩, g.data⟩, henv k fds hfs fd hfd⟩
    cases ho : h.obj a with
    | inst k es =>
      dsimp only
      rw [ho] at hk
      split
      · rename_i hcond
        refine good_keep hc ha fun hS => ?_
        have h1 : c.validate = true := hS.2
        rw [h1] at hcond
        simp at hcond
      · split
        · exact good_err _ (ext_self h) hc
        · cases env.find cs (.inst k es) with
          | none => exact good_err _ (ext_self h) hc
          | some m => exact good_model (fun fds hfs => ih m fds hfs) he hc hk
    | dict es =>
      dsimp only
      rw [ho] at hk
      cases env.find cs (.dict es) with
      | none => exact good_err _ (ext_self h) hc
      | some m => exact good_model (fun fds hfs => ih m fds hfs) he hc hk
    | _ => exact good_err _ (ext_self h) hc

/-! ## The export -/

/-- Exporting hands no mutable object back as it is. -/
def Ty.StrictOut : Ty → Prop
  | .leaf _ ex => ∀ o, ex o = .keep → o.isAtom = true
  | .list t _ _ => t.StrictOut
  | .dict t _ _ _ => t.StrictOut
  | .model _ => True
  | .poly _ _ => True

/-- … in all classes. -/
def Env.StrictOut (env : Env) : Prop := ∀ cls fds, env.fields cls = some fds → ∀ fd ∈ fds, fd.ty.StrictOut

theorem GoodL.base {S : Prop} {h0 h1 h : Heap} {d : List Nat} (g : GoodL S h1 h d) (hl : h0.length ≤ h1.length) : GoodL S h0 h d :=
  ⟨g.lt, fun hS => by
    obtain ⟨G, hd, ho, hn, hlo⟩ := g.own hS
    exact ⟨G, hd, ho, hn, fun a ha => Nat.le_trans hl (hlo a ha)⟩⟩

theorem good_passNone {S : Prop} {H : Heap} {f : Heap → Nat → Heap × Res} (hf : GoodFn S H f) : GoodFn S H (passNone f) := by
  intro h a he hc ha
  rw [passNone]
  split
  · rename_i hn
    exact good_keep hc ha fun _ => isAtom_of_isNone hn
  · exact hf h a he hc ha

theorem good_expItems {S : Prop} {H : Heap} {f : Heap → Nat → Heap × Res} (hf : GoodFn S H f) (out : Heap → Nat → Bool) :
    ∀ (as : List Nat) (h : Heap), (∃ new, h = H ++ new) → Closed h → (∀ a ∈ as, a < h.length) →
      (∃ new, (expItems f out h as).1 = h ++ new) ∧ Closed (expItems f out h as).1 ∧ ∀ bs, (expItems f out h as).2 = some bs → GoodL S h (expItems f out h as).1 bs
  | [], h, _, hc, _ => ⟨ext_self h, hc, fun bs hbs => by cases hbs; exact GoodL.nil S h h⟩
  | a :: as, h, he, hc, ha => by
    have g := hf h a he hc (ha a (List.mem_cons_self ..))
    rw [expItems]
    rcases hp : f h a with ⟨h1, r⟩
    rw [hp] at g
    have ih := good_expItems hf out as h1 (ext_trans he g.ext) g.closed
      (fun x hx => Nat.lt_of_lt_of_le (ha x (List.mem_cons_of_mem _ hx)) (len_le g.ext))
    cases r with
    | ok b =>
      dsimp only
      rcases hq : expItems f out h1 as with ⟨h2, o⟩
      rw [hq] at ih
      obtain ⟨i1, i2, i3⟩ := ih
      cases o with
      | none => exact ⟨ext_trans g.ext i1, i2, fun bs hbs => by cases hbs⟩
      | some bs =>
        refine ⟨ext_trans g.ext i1, i2, fun bs' hbs => ?_⟩
        dsimp only at hbs
        split at hbs
        · cases hbs
          exact (i3 _ rfl).base (len_le g.ext)
        · cases hbs
          exact GoodL.cons (g.ok b rfl) i1 (i3 bs rfl) (len_le g.ext)
    | err => exact ⟨g.ext, g.closed, fun bs hbs => by cases hbs⟩
    | data p => exact ⟨g.ext, g.closed, fun bs hbs => by cases hbs⟩

theorem good_expEntries {S : Prop} {H : Heap} {f : Heap → Nat → Heap × Res} (hf : GoodFn S H f) (out : Heap → Nat → Bool) :
    ∀ (as : List (Key × Nat)) (h : Heap), (∃ new, h = H ++ new) → Closed h → (∀ a ∈ as, a.2 < h.length) →
      (∃ new, (expEntries f out h as).1 = h ++ new) ∧ Closed (expEntries f out h as).1 ∧
        ∀ bs, (expEntries f out h as).2 = some bs → GoodL S h (expEntries f out h as).1 (bs.map Prod.snd)
  | [], h, _, hc, _ => ⟨ext_self h, hc, fun bs hbs => by cases hbs; exact GoodL.nil S h h⟩
  | (k, a) :: as, h, he, hc, ha => by
    have g := hf h a he hc (ha (k, a) (List.mem_cons_self ..))
    rw [expEntries]
    rcases hp : f h a with ⟨h1, r⟩
    rw [hp] at g
    have ih := good_expEntries hf out as h1 (ext_trans he g.ext) g.closed
      (fun x hx => Nat.lt_of_lt_of_le (ha x (List.mem_cons_of_mem _ hx)) (len_le g.ext))
    cases r with
    | ok b =>
      dsimp only
      rcases hq : expEntries f out h1 as with ⟨h2, o⟩
      rw [hq] at ih
      obtain ⟨i1, i2, i3⟩ := ih
      cases o with
      | none => exact ⟨ext_trans g.ext i1, i2, fun bs hbs => by cases hbs⟩
      | some bs =>
        refine ⟨ext_trans g.ext i1, i2, fun bs' hbs => ?_⟩
        dsimp only at hbs
        split at hbs
        · cases hbs
          exact (i3 _ rfl).base (len_le g.ext)
        · cases hbs
          exact GoodL.cons (g.ok b rfl) i1 (i3 bs rfl) (len_le g.ext)
    | err => exact ⟨g.ext, g.closed, fun bs hbs => by cases hbs⟩
    | data p => exact ⟨g.ext, g.closed, fun bs hbs => by cases hbs⟩

theorem good_expFields {S : Prop} {f : Ty → Heap → Nat → Heap × Res} {lvl : Nat} {es : List (Key × Nat)} {H h0 : Heap} :
    ∀ (fds : List Fld), (∀ fd ∈ fds, GoodFn S H (f fd.ty)) → ∀ (h : Heap) (d : List (Key × Nat)),
      (∃ new, h = H ++ new) → (∃ new, h = h0 ++ new) → Closed h → (∀ a ∈ es.map Prod.snd, a < h.length) → GoodL S h0 h (d.map Prod.snd) →
      (∃ new, (expFields f lvl es fds h d).1 = h ++ new) ∧ Closed (expFields f lvl es fds h d).1 ∧
        ∀ d', (expFields f lvl es fds h d).2 = some d' → GoodL S h0 (expFields f lvl es fds h d).1 (d'.map Prod.snd)
  | [], _, h, d, _, _, hc, _, g => ⟨ext_self h, hc, fun d' hd => by cases hd; exact g⟩
  | fd :: fds, hfd, h, d, he, he0, hc, hes, g => by
    have rest : ∀ (h1 : Heap) (d1 : List (Key × Nat)), (∃ new, h1 = h ++ new) → Closed h1 → GoodL S h0 h1 (d1.map Prod.snd) →
        (∃ new, (expFields f lvl es fds h1 d1).1 = h ++ new) ∧ Closed (expFields f lvl es fds h1 d1).1 ∧
        ∀ d', (expFields f lvl es fds h1 d1).2 = some d' → GoodL S h0 (expFields f lvl es fds h1 d1).1 (d'.map Prod.snd) := by
      intro h1 d1 e1 c1 g1
      obtain ⟨j1, j2, j3⟩ := good_expFields (lvl := lvl) (es := es) (h0 := h0) fds (fun x hx => hfd x (List.mem_cons_of_mem _ hx)) h1 d1 (ext_trans he e1)
        (ext_trans he0 e1) c1 (fun a ha => Nat.lt_of_lt_of_le (hes a ha) (len_le e1)) g1
      exact ⟨ext_trans e1 j1, j2, j3⟩
    rw [expFields]
    split
    · exact rest h d (ext_self h) hc g
    · cases hg : Dict.get? es (.str fd.name) with
      | none =>
        dsimp only
        split
        · exact rest h d (ext_self h) hc g
        · have ga := good_atom (S := S) hc .none
          exact rest _ _ ga.ext ga.closed (g.set ga.ext (len_le he0) (ga.ok h.length rfl) _)
      | some a =>
        dsimp only
        have gg := good_passNone (hfd fd (List.mem_cons_self ..)) h a he hc (hes a (List.mem_map.2 ⟨_, Dict.mem_of_get? hg, rfl⟩))
        rcases hr : passNone (f fd.ty) h a with ⟨h1, r⟩
        rw [hr] at gg
        cases r with
        | ok b =>
          dsimp only
          split
          · exact rest h1 d gg.ext gg.closed (g.grow gg.ext)
          · exact rest h1 _ gg.ext gg.closed (g.set gg.ext (len_le he0) (gg.ok b rfl) _)
        | err => exact ⟨gg.ext, gg.closed, fun d' hd => by cases hd⟩
        | data p => exact ⟨gg.ext, gg.closed, fun d' hd => by cases hd⟩

theorem good_expModel {S : Prop} {f : Ty → Heap → Nat → Heap × Res} {env : Env} {lvl : Nat} {cls : String} {es : List (Key × Nat)} {H h : Heap}
    (hf : ∀ fds, env.fields cls = some fds → ∀ fd ∈ fds, GoodFn S H (f fd.ty))
    (he : ∃ new, h = H ++ new) (hc : Closed h) (hes : ∀ a ∈ es.map Prod.snd, a < h.length) : Good S h (expModel f env lvl cls h es) := by
  rw [expModel]
  cases hfs : env.fields cls with
  | none => exact good_err S (ext_self h) hc
  | some fds =>
    dsimp only
    obtain ⟨i1, i2, i3⟩ := good_expFields (lvl := lvl) (es := es) (h0 := h) fds (hf fds hfs) h [] he (ext_self h) hc hes (GoodL.nil _ h h)
    rcases hp : expFields f lvl es fds h [] with ⟨h1, o⟩
    rw [hp] at i1 i2 i3
    cases o with
    | none => exact good_err S i1 i2
    | some d => exact good_new i1 i2 (o := .dict d) rfl (i3 d rfl)

/-- `expo` on any type. -/
theorem good_expo (env : Env) (lvl : Nat) (H : Heap) (S : Prop) (hstrict : S → env.StrictOut) :
    ∀ (n : Nat) (t : Ty), GoodFn (S ∧ t.StrictOut) H (expo env lvl n t)
  | 0, t => fun h a _ hc _ => by rw [expo]; exact good_err _ (ext_self h) hc
  | n + 1, .leaf cv ex => fun h a _ hc ha => by
    rw [expo]
    cases hcv : ex (h.obj a) with
    | fail => exact good_err _ (ext_self h) hc
    | keep => exact good_keep hc ha fun hS => hS.2 _ hcv
    | make v => exact good_atom hc v
  | n + 1, .list t req val => fun h a he hc ha => by
    rw [expo]
    have hk := closed_obj hc a
    cases ho : h.obj a with
    | list xs =>
      dsimp only
      rw [ho] at hk
      by_cases hl : lvl = 0
      · rw [if_pos hl]
        exact good_new (ext_self h) hc (o := .list []) rfl (GoodL.nil _ h h)
      · rw [if_neg hl]
        obtain ⟨i1, i2, i3⟩ := good_expItems (good_passNone (good_expo env lvl H S hstrict n t)) (leftOut lvl t.compound) xs h he hc hk
        rcases hp : expItems (passNone (expo env lvl n t)) (leftOut lvl t.compound) h xs with ⟨h1, o⟩
        rw [hp] at i1 i2 i3
        cases o with
        | none => exact good_err _ i1 i2
        | some ys => exact good_new i1 i2 (o := .list ys) rfl (i3 ys rfl)
    | _ => exact good_err _ (ext_self h) hc
  | n + 1, .dict t req val ck => fun h a he hc ha => by
    rw [expo]
    have hk := closed_obj hc a
    cases ho : h.obj a with
    | dict es =>
      dsimp only
      rw [ho] at hk
      by_cases hl : lvl = 0
      · rw [if_pos hl]
        exact good_new (ext_self h) hc (o := .dict []) rfl (GoodL.nil _ h h)
      · rw [if_neg hl]
        obtain ⟨i1, i2, i3⟩ := good_expEntries (good_passNone (good_expo env lvl H S hstrict n t)) (leftOut lvl t.compound) es h he hc
          (fun e he => hk e.2 (List.mem_map.2 ⟨e, he, rfl⟩))
        rcases hp : expEntries (passNone (expo env lvl n t)) (leftOut lvl t.compound) h es with ⟨h1, o⟩
        rw [hp] at i1 i2 i3
        cases o with
        | none => exact good_err _ i1 i2
        | some ys => exact good_new i1 i2 (o := .dict ys) rfl (i3 ys rfl)
    | _ => exact good_err _ (ext_self h) hc
  | n + 1, .model cls => fun h a he hc ha => by
    rw [expo]
    have hk := closed_obj hc a
    have ih : ∀ k fds, env.fields k = some fds → ∀ fd ∈ fds, GoodFn (S ∧ (Ty.model cls).StrictOut) H (expo env lvl n fd.ty) := fun k fds hfs fd hfd h' a' x y z => by
      have g := good_expo env lvl H S hstrict n fd.ty h' a' x y z
      exact ⟨g.ext, g.closed, fun b hb => ⟨(g.ok b hb).1, fun hS => (g.ok b hb).2 ⟨hS.1, hstrict hS.1 k fds hfs fd hfd⟩⟩, g.data⟩
    cases ho : h.obj a with
    | inst k es =>
      rw [ho] at hk
      exact good_expModel (fun fds hfs => ih k fds hfs) he hc hk
    | dict es =>
      rw [ho] at hk
      exact good_expModel (fun fds hfs => ih cls fds hfs) he hc hk
    | _ => exact good_err _ (ext_self h) hc
  | n + 1, .poly cs sub => fun h a he hc ha => by
    rw [expo]
    have hk := closed_obj hc a
    have ih : ∀ k fds, env.fields k = some fds → ∀ fd ∈ fds, GoodFn (S ∧ (Ty.poly cs sub).StrictOut) H (expo env lvl n fd.ty) := fun k fds hfs fd hfd h' a' x y z => by
      have g := good_expo env lvl H S hstrict n fd.ty h' a' x y z
      exact ⟨g.ext, g.closed, fun b hb => ⟨(g.ok b hb).1, fun hS => (g.ok b hb).2 ⟨hS.1, hstrict hS.1 k fds hfs fd hfd⟩⟩, g.data⟩
    cases ho : h.obj a with
    | inst k es =>
      dsimp only
      rw [ho] at hk
      split
      · exact good_expModel (fun fds hfs => ih k fds hfs) he hc hk
      · exact good_err _ (ext_self h) hc
    | _ => exact good_err _ (ext_self h) hc

end Verif.Fresh
