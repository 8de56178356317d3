import Verif.Props.Readers2

/-! # C108: fields read by other threads: assignment, deletion and import -/
namespace Verif

open DictHeap

/-! ## Deletion -/

/-- While a field is deleted: `A` until the pending value is gone, then `B`. -/
structure Deleting (I : HInst) (C W : Data → Prop) (s : Cells) : Prop where
  map0 : s.map0 = I.raw
  map1 : s.map1 = I.converted
  map2 : s.map2 = I.valid
  raw : s.heap.rd I.raw = []
  valid : W (s.heap.rd I.valid)
  pending : C (s.heap.rd I.converted)

theorem safe_of_deleting {I : HInst} {c0 c1 v0 v1 : Data} {film : List Cells} {k : Key} {P : Option Val → Prop}
    (hf : Cut (Deleting I (· = c0) (fun d => d = v0 ∨ d = v1)) (Deleting I (· = c1) (· = v1)) film)
    (h0 : P ((Dict.get? c0 k).or (Dict.get? v0 k))) (h1 : P ((Dict.get? c1 k).or (Dict.get? v1 k))) (hc : Dict.get? c0 k = none → Dict.get? c1 k = none) : Safe film k P := by
  obtain ⟨p, hp⟩ := hf.point
  have comm : ∀ (i : Nat) (a : Cells), film[i]? = some a → a.map0 = I.raw ∧ a.map1 = I.converted ∧ a.map2 = I.valid ∧ a.heap.rd I.raw = [] ∧
      ((i < p ∧ a.heap.rd I.converted = c0 ∧ (a.heap.rd I.valid = v0 ∨ a.heap.rd I.valid = v1)) ∨ (p ≤ i ∧ a.heap.rd I.converted = c1 ∧ a.heap.rd I.valid = v1)) := by
    intro i a hi
    rcases Nat.lt_or_ge i p with h | h
    · have := (hp i a hi).1 h
      exact ⟨this.map0, this.map1, this.map2, this.raw, .inl ⟨h, this.pending, this.valid⟩⟩
    · have := (hp i a hi).2 h
      exact ⟨this.map0, this.map1, this.map2, this.raw, .inr ⟨h, this.pending, this.valid⟩⟩
  refine ⟨fun hij hi hj => ?_, fun {i j a b v} hij hi hj hv => ?_, fun {i j i' j' a b a' b'} hij hji hij' hi hj hi' hj' hn => ?_⟩
  · unfold probe
    simp only []
    rw [(comm _ _ hi).1, (comm _ _ hj).2.2.2.1]; rfl
  · unfold probe at hv
    simp only [] at hv
    rw [(comm _ _ hi).2.1] at hv
    rcases (comm _ _ hj).2.2.2.2 with ⟨_, e, _⟩ | ⟨_, e, _⟩
    · rw [e] at hv; rw [hv] at h0; exact h0
    · rw [e] at hv; rw [hv] at h1; exact h1
  · unfold probe at hn ⊢
    simp only [] at hn ⊢
    rw [(comm _ _ hi).2.1] at hn
    rw [(comm _ _ hi').2.2.1]
    have two : Dict.get? c1 k = none → P (Dict.get? v1 k) := fun e => by rw [e] at h1; exact h1
    rcases (comm _ _ hj).2.2.2.2 with ⟨_, e, _⟩ | ⟨hpj, e, _⟩
    · rw [e] at hn
      have one : P (Dict.get? v0 k) := by rw [hn] at h0; exact h0
      rcases (comm _ _ hj').2.2.2.2 with ⟨_, _, e' | e'⟩ | ⟨_, _, e'⟩ <;> rw [e']
      · exact one
      · exact two (hc hn)
      · exact two (hc hn)
    · rw [e] at hn
      rcases (comm _ _ hj').2.2.2.2 with ⟨hl, _⟩ | ⟨_, _, e'⟩
      · omega
      · rw [e']; exact two hn

theorem film_delIn {k : Key} {a : Nat} {s : Cells} {A : Cells → Prop} {f0 f : Film} {E : Fault → Cells → Film → Prop} (hs : A s) (hf : Adds A f0 f) :
    Shot (Steps.delIn k a) s f (fun _ s' f' => s' = { s with heap := (HInst.delIn s.heap k a).2 } ∧ Adds A f0 f') E := by
  unfold Steps.delIn HInst.delIn
  refine Shot.seq (Shot.look (Q := fun b s' f' => b = (s.heap.rd a).has k ∧ s' = s ∧ f' = f) ⟨rfl, rfl, rfl⟩) ?_
  rintro b s' f ⟨rfl, rfl, rfl⟩
  cases hb : (s'.heap.rd a).has k with
  | false => exact Shot.ret ⟨rfl, hf⟩
  | true => exact Shot.seq (Shot.store (Q := fun _ s2 f2 => s2 = _ ∧ f2 = f.add s') ⟨rfl, rfl⟩) fun _ s2 f2 e => Shot.ret ⟨e.1, by rw [e.2]; exact hf.snoc hs⟩

section
variable {env : Env} {n : Nat} {c : ClassDef} {h : DictHeap} {I : HInst} {fd : FieldDef}

/-- The film `f` and the cells `s` at the end show to readers of `k` only what satisfies `P`. -/
def Shows (k : Key) (P : Option Val → Prop) (f : Film) (s : Cells) : Prop := ∀ l, (∀ x ∈ l, x = s) → Safe (f.frames ++ l) k P

theorem shows_of_cut {A B : Cells → Prop} {k : Key} {P : Option Val → Prop} {f : Film} {s : Cells} (hc : Cut A B f.frames) (hs : B s) (h : ∀ film, Cut A B film → Safe film k P) : Shows k P f s := by
  intro l hl
  obtain ⟨l1, l2, e, ha, hb⟩ := hc
  refine h _ ⟨l1, l2 ++ l, by rw [e, List.append_assoc], ha, fun x hx => ?_⟩
  rcases List.mem_append.1 hx with hx | hx
  · exact hb x hx
  · rw [hl x hx]; exact hs

theorem film_del (o : HInst.Ok h I) (hw : (I.value h).WF) (hr : h.rd I.raw = []) (x : Key) (name : String) {P : Option Val → Prop} (h0 : P ((I.value h).lookup x))
    (h1 : P ((delAttr c (I.value h) name).2.lookup x)) :
    Shot (Steps.delAttr c name) (Cells.of h I) {} (fun _ s' f => Shows x P f s') (fun _ s' f => Shows x P f s') := by
  have hlook : ∀ g : DictHeap, g.rd I.raw = [] → (I.value g).lookup x = (Dict.get? (g.rd I.converted) x).or (Dict.get? (g.rd I.valid) x) := by
    intro g hg
    rw [lookup_noraw (show (I.value g).raw = [] from hg)]; rfl
  -- nothing was done
  have nothing : ∀ f : Fault, Shot (Steps.throw f : Steps Film Unit) (Cells.of h I) {} (fun _ s' f => Shows x P f s') (fun _ s' f => Shows x P f s') := by
    intro f
    refine Shot.raise (shows_of_cut (A := Deleting I (· = h.rd I.converted) (fun d => d = h.rd I.valid ∨ d = h.rd I.valid)) (B := Deleting I (· = h.rd I.converted) (· = h.rd I.valid))
      ⟨[], [], rfl, (fun _ h => by cases h), fun _ h => by cases h⟩ ⟨rfl, rfl, rfl, hr, rfl, rfl⟩ fun film hf => safe_of_deleting hf ?_ ?_ id)
    · rw [← hlook h hr]; exact h0
    · rw [← hlook h hr]; exact h0
  unfold Steps.delAttr
  unfold delAttr at h1
  cases hfd : c.field? name with
  | none => exact nothing _
  | some g =>
    rw [hfd] at h1
    simp only [] at h1 ⊢
    split
    · exact nothing _
    · rename_i hg
      rw [if_neg hg] at h1
      generalize Key.str name = k at h1
      have hsim := (HInst.delete_sim o k).2.value
      simp only [] at hsim
      rw [← hsim] at h1
      have l1 := HInst.delIn_length h k I.stale
      have l2 := HInst.delIn_length (HInst.delIn h k I.stale).2 k I.converted
      have r1 := fun b => HInst.delIn_rd h k I.stale b o.stale
      have r2 := fun b => HInst.delIn_rd (HInst.delIn h k I.stale).2 k I.converted b (by rw [l1]; exact o.converted)
      have r3 := fun b => HInst.delIn_rd (HInst.delIn (HInst.delIn h k I.stale).2 k I.converted).2 k I.raw b (by rw [l2, l1]; exact o.raw)
      have h1r : (HInst.delIn h k I.stale).2.rd I.raw = [] := by rw [r1, if_neg o.rs]; exact hr
      have h2r : (HInst.delIn (HInst.delIn h k I.stale).2 k I.converted).2.rd I.raw = [] := by rw [r2, if_neg o.rc]; exact h1r
      have h3r : (HInst.delIn (HInst.delIn (HInst.delIn h k I.stale).2 k I.converted).2 k I.raw).2.rd I.raw = [] := by rw [r3, if_pos rfl, h2r]; rfl
      have hcn : (h.rd I.converted).Nodup := hw.converted
      generalize hv1 : (HInst.delIn h k I.stale).2.rd I.valid = v1 at *
      have c1 : (HInst.delIn h k I.stale).2.rd I.converted = h.rd I.converted := by rw [r1, if_neg o.cs]
      have c2 : (HInst.delIn (HInst.delIn h k I.stale).2 k I.converted).2.rd I.converted = (h.rd I.converted).erase k := by rw [r2, if_pos rfl, c1]
      have c3 : (HInst.delIn (HInst.delIn (HInst.delIn h k I.stale).2 k I.converted).2 k I.raw).2.rd I.converted = (h.rd I.converted).erase k := by rw [r3, if_neg (Ne.symm o.rc), c2]
      have v2 : (HInst.delIn (HInst.delIn h k I.stale).2 k I.converted).2.rd I.valid = v1 := by rw [r2, if_neg (Ne.symm o.cv), hv1]
      have v3 : (HInst.delIn (HInst.delIn (HInst.delIn h k I.stale).2 k I.converted).2 k I.raw).2.rd I.valid = v1 := by rw [r3, if_neg (Ne.symm o.rv), v2]
      have safe : ∀ film, Cut (Deleting I (· = h.rd I.converted) (fun d => d = h.rd I.valid ∨ d = v1)) (Deleting I (· = (h.rd I.converted).erase k) (· = v1)) film → Safe film x P := by
        intro film hf
        refine safe_of_deleting hf ?_ ?_ ?_
        · rw [← hlook h hr]; exact h0
        · have : (I.value (I.delete h k).2).lookup x = (Dict.get? ((h.rd I.converted).erase k) x).or (Dict.get? v1 x) := by
            have e : (I.value (I.delete h k).2).lookup x = (I.value (HInst.delIn (HInst.delIn (HInst.delIn h k I.stale).2 k I.converted).2 k I.raw).2).lookup x := rfl
            rw [e, hlook _ h3r, c3, v3]
          rw [← this]; exact h1
        · intro e
          rw [Dict.get?_erase hcn]
          split
          · rfl
          · exact e
      have s0 : Deleting I (· = h.rd I.converted) (fun d => d = h.rd I.valid ∨ d = v1) (Cells.of h I) := ⟨rfl, rfl, rfl, hr, .inl rfl, rfl⟩
      have s1 : Deleting I (· = h.rd I.converted) (fun d => d = h.rd I.valid ∨ d = v1) (Cells.of (HInst.delIn h k I.stale).2 I) := ⟨rfl, rfl, rfl, h1r, .inr hv1, c1⟩
      have s2 : Deleting I (· = (h.rd I.converted).erase k) (· = v1) (Cells.of (HInst.delIn (HInst.delIn h k I.stale).2 k I.converted).2 I) := ⟨rfl, rfl, rfl, h2r, v2, c2⟩
      have s3 : Deleting I (· = (h.rd I.converted).erase k) (· = v1) (Cells.of (HInst.delIn (HInst.delIn (HInst.delIn h k I.stale).2 k I.converted).2 k I.raw).2 I) := ⟨rfl, rfl, rfl, h3r, v3, c3⟩
      unfold Steps.delete
      refine Shot.seq (Shot.look (Q := fun a s' f => a = I.stale ∧ s' = Cells.of h I ∧ f = {}) ⟨rfl, rfl, rfl⟩) ?_
      rintro a s _ ⟨rfl, rfl, rfl⟩
      refine Shot.seq (film_delIn s0 (Adds.refl _)) ?_
      rintro b1 s f1 ⟨rfl, hf1⟩
      refine Shot.seq (Shot.look (Q := fun a s' f => a = I.converted ∧ s' = Cells.of (HInst.delIn h k I.stale).2 I ∧ f = f1) ⟨rfl, rfl, rfl⟩) ?_
      rintro a s f1 ⟨rfl, rfl, rfl⟩
      refine Shot.seq (film_delIn s1 hf1) ?_
      rintro b2 s f2 ⟨rfl, hf2⟩
      refine Shot.seq (Shot.look (Q := fun a s' f => a = I.raw ∧ s' = Cells.of (HInst.delIn (HInst.delIn h k I.stale).2 k I.converted).2 I ∧ f = f2) ⟨rfl, rfl, rfl⟩) ?_
      rintro a s f2 ⟨rfl, rfl, rfl⟩
      refine Shot.seq (film_delIn s2 (Adds.refl _)) ?_
      rintro b3 s f3 ⟨rfl, hf3⟩
      have hcut : Cut (Deleting I (· = h.rd I.converted) (fun d => d = h.rd I.valid ∨ d = v1)) (Deleting I (· = (h.rd I.converted).erase k) (· = v1)) f3.frames := by
        obtain ⟨l1, e1, ha⟩ := hf2
        obtain ⟨l2, e2, hb⟩ := hf3
        exact ⟨l1, l2, by rw [e2, e1]; rfl, ha, hb⟩
      split
      · exact Shot.ret (shows_of_cut hcut s3 safe)
      · exact Shot.raise (shows_of_cut hcut s3 safe)

/-! ## Assignment -/

/-- The pending values are such that `k` reads something that satisfies `P`. -/
def Reads (P : Option Val → Prop) (old : Data) (k : Key) (d : Data) : Prop := P ((Dict.get? d k).or (Dict.get? old k))

theorem keyOk_reads {V : Inst} {k : Key} {d : Data} {P : Option Val → Prop} (hr : V.raw = []) (h : P (V.lookup k)) (hk : KeyOk V k d) : Reads P V.valid k d := by
  unfold Reads
  have hl := lookup_noraw hr k
  rcases hk with hk | ⟨hk, hk'⟩
  · cases hg : Dict.get? d k with
    | some v => rw [← hk, hg] at h; exact h
    | none =>
      rw [hg] at hk
      rw [← hk] at hl
      have : Dict.get? V.valid k = none := by
        cases hc : Dict.get? V.converted k with
        | some v => rw [hc] at hl; cases hl
        | none => rw [hc] at hl; exact hl.symm
      rw [this]; rw [← hk] at h; exact h
  · rw [hk]
    rw [hl, hk'] at h
    exact h

theorem shows_front {old : Data} {k : Key} {P : Option Val → Prop} {f : Film} {s : Cells} (hf : Adds (Front I old (Reads P old k)) {} f) (hs : Front I old (Reads P old k) s) :
    Shows k P f s := by
  intro l hl
  obtain ⟨l1, e, ha⟩ := hf
  have hall : ∀ x ∈ f.frames ++ l, Front I old (Reads P old k) x := by
    intro x hx
    rcases List.mem_append.1 hx with hx | hx
    · rw [e] at hx; exact ha x hx
    · rw [hl x hx]; exact hs
  have comm : ∀ (i : Nat) (a : Cells), (f.frames ++ l)[i]? = some a → Front I old (Reads P old k) a := fun i a hi => hall a (List.mem_of_getElem? hi)
  refine ⟨fun hij hi hj => ?_, fun {i j a b v} hij hi hj hv => ?_, fun {i j i' j' a b a' b'} hij hji hij' hi hj hi' hj' hn => ?_⟩
  · unfold probe
    simp only []
    rw [(comm _ _ hi).map0, (comm _ _ hj).raw]; rfl
  · unfold probe at hv
    simp only [] at hv
    rw [(comm _ _ hi).map1] at hv
    have := (comm _ _ hj).pending
    unfold Reads at this
    rw [hv] at this; exact this
  · unfold probe at hn ⊢
    simp only [] at hn ⊢
    rw [(comm _ _ hi).map1] at hn
    rw [(comm _ _ hi').map2, (comm _ _ hj').valid]
    have := (comm _ _ hj).pending
    unfold Reads at this
    rw [hn] at this; exact this

theorem film_set (o : HInst.Ok h I) (hr : h.rd I.raw = []) (hna : NotAssigned c fd.name) (name : String) (v : Val) {P : Option Val → Prop} (h0 : P ((I.value h).lookup (.str fd.name)))
    (h1 : P ((setAttr env n c (I.value h) name v).2.lookup (.str fd.name))) :
    Shot (Steps.setAttr env n c name v) (Cells.of h I) {} (fun _ s' f => Shows (.str fd.name) P f s') (fun _ s' f => Shows (.str fd.name) P f s') := by
  have hraw : (I.value h).raw = [] := hr
  have hval : ∀ l, (Cells.of (h.wr I.converted ((h.rd I.converted).update l)) I).heap.rd I.valid = h.rd I.valid := by
    intro l
    show (h.wr I.converted _).rd I.valid = _
    rw [rd_wr _ _ _ _ o.converted, if_neg (Ne.symm o.cv)]
  have front : ∀ l, Reads P (h.rd I.valid) (.str fd.name) ((h.rd I.converted).update l) →
      Front I (h.rd I.valid) (Reads P (h.rd I.valid) (.str fd.name)) (Cells.of (h.wr I.converted ((h.rd I.converted).update l)) I) := by
    intro l hl
    refine ⟨rfl, rfl, rfl, ?_, hval l, ?_⟩
    · show (h.wr I.converted _).rd I.raw = _
      rw [rd_wr _ _ _ _ o.converted, if_neg o.rc]; exact hr
    · show Reads _ _ _ ((h.wr I.converted _).rd I.converted)
      rw [rd_wr _ _ _ _ o.converted, if_pos rfl]; exact hl
  have r0 : Reads P (h.rd I.valid) (.str fd.name) (h.rd I.converted) := by
    rw [lookup_noraw hraw] at h0
    exact h0
  have f0 : Front I (h.rd I.valid) (Reads P (h.rd I.valid) (.str fd.name)) (Cells.of h I) := ⟨rfl, rfl, rfl, hr, rfl, r0⟩
  have start : ∀ {f : Film}, Adds (Front I (h.rd I.valid) (Reads P (h.rd I.valid) (.str fd.name))) {} f → Shows (.str fd.name) P f (Cells.of h I) := fun hf => shows_front hf f0
  unfold Steps.setAttr
  unfold setAttr at h1
  cases hf : c.field? name with
  | none => exact Shot.raise (start (Adds.refl _))
  | some g =>
    rw [hf] at h1
    simp only [] at h1 ⊢
    cases hg : g.fget with
    | some f0' =>
      simp only []
      cases hs : g.fset with
      | none => exact Shot.raise (start (Adds.refl _))
      | some f =>
        simp only []
        refine Shot.seq (Shot.ofR (Q := fun w s' ff => preSet env n g.field v = .ok w ∧ s' = Cells.of h I ∧ Adds (Front I (h.rd I.valid) (Reads P (h.rd I.valid) (.str fd.name))) {} ff)
          (fun w hw => ⟨hw, rfl, (Adds.refl _).snoc f0⟩) (fun _ _ => start ((Adds.refl _).snoc f0))) ?_
        rintro w s ff ⟨hw, rfl, hff⟩
        refine Shot.seq (Shot.ofR (Q := fun a s' ff => f w = .ok a ∧ s' = Cells.of h I ∧ Adds (Front I (h.rd I.valid) (Reads P (h.rd I.valid) (.str fd.name))) {} ff)
          (fun w hw => ⟨hw, rfl, hff.snoc f0⟩) (fun _ _ => start (hff.snoc f0))) ?_
        rintro asg s ff ⟨ha, rfl, hff⟩
        refine Shot.seq (Shot.look (Q := fun a s' f' => a = I.converted ∧ s' = Cells.of h I ∧ f' = ff) ⟨rfl, rfl, rfl⟩) ?_
        rintro a s ff ⟨rfl, rfl, rfl⟩
        have hno : Key.str fd.name ∉ Dict.keys asg := hna g (List.mem_of_find?_eq_some hf) f hs _ _ ha
        have hkeep : ∀ l1 l2 : List (Key × Val), l1 ++ l2 = asg → Reads P (h.rd I.valid) (.str fd.name) ((h.rd I.converted).update l1) := by
          intro l1 l2 hl
          unfold Reads at r0 ⊢
          rw [get?_prefix_none hl hno]; exact r0
        exact Shot.writeAt _ hff (fun l1 l2 hl => front l1 (hkeep l1 l2 hl)) fun f' hf' => shows_front hf' (front asg (hkeep asg [] (List.append_nil _)))
    | none =>
      rw [hg] at h1
      simp only [] at h1 ⊢
      refine Shot.seq (Shot.ofR (Q := fun w s' ff => preSet env n g.field v = .ok w ∧ s' = Cells.of h I ∧ Adds (Front I (h.rd I.valid) (Reads P (h.rd I.valid) (.str fd.name))) {} ff)
          (fun w hw => ⟨hw, rfl, (Adds.refl _).snoc f0⟩) (fun _ _ => start ((Adds.refl _).snoc f0))) ?_
      rintro w s ff ⟨hw, rfl, hff⟩
      refine Shot.seq (Shot.look (Q := fun a s' f' => a = I.converted ∧ s' = Cells.of h I ∧ f' = ff) ⟨rfl, rfl, rfl⟩) ?_
      rintro a s ff ⟨rfl, rfl, rfl⟩
      rw [hw] at h1
      simp only [] at h1
      have hend : Reads P (h.rd I.valid) (.str fd.name) ((h.rd I.converted).update [(.str name, w)]) := by
        rw [lookup_noraw (by exact hraw)] at h1
        exact h1
      refine Shot.writeAt _ hff (fun l1 l2 hl => ?_) fun f' hf' => shows_front hf' (front _ hend)
      cases l1 with
      | nil => exact front [] r0
      | cons x l1 =>
        have hl' : l1 = [] ∧ x = (Key.str name, w) := by
          simp only [List.cons_append, List.cons.injEq, List.append_eq_nil_iff] at hl
          exact ⟨hl.2.1, hl.1⟩
        obtain ⟨rfl, rfl⟩ := hl'
        exact front _ hend

end
end Verif
