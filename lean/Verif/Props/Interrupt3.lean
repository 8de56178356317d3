import Verif.Props.Interrupt2
import Verif.Props.Instance5

/-! # C107: interrupted calls, the theorems -/
namespace Verif

open DictHeap

section
variable {h : DictHeap} {I : HInst} {k : Key}

theorem Early.reads {s : Cells} (e : Early h I k s) (hr : h.rd I.raw = []) : s.lookup k = (I.value h).lookup k := by
  have hl : s.lookup k = match Dict.get? (s.heap.rd I.converted) k with | some v => some v | none => Dict.get? (h.rd I.valid) k := by
    unfold Cells.lookup
    rw [e.map0, e.raw, e.map1, e.map2, e.valid]; rfl
  have hv : Dict.get? (I.value h).valid k = Dict.get? (h.rd I.valid) k := rfl
  rw [hl]
  rcases e.pending with p | ⟨p, p'⟩
  · rw [p]
    cases hx : (I.value h).lookup k with
    | some v => rfl
    | none =>
      rw [lookup_noraw (show (I.value h).raw = [] from hr)] at hx
      cases hc : Dict.get? (I.value h).converted k with
      | some v => rw [hc] at hx; cases hx
      | none => rw [hc] at hx; exact hx
  · rw [p, lookup_noraw (show (I.value h).raw = [] from hr), p']; rfl

theorem Cells.lookup_of (h : DictHeap) (I : HInst) (k : Key) : (Cells.of h I).lookup k = (I.value h).lookup k := rfl

end

section
variable {env : Env} {n : Nat} {c : ClassDef} {h : DictHeap} {I : HInst} {fd : FieldDef}

/-- What a field reads during `import_data`. -/
def ImportReads (env : Env) (n : Nat) (c : ClassDef) (V : Inst) (raw : Data) (ctx : Ctx) (k : Key) (x : Option Val) : Prop :=
  x = V.lookup k ∨ (∃ d w, (instConvert env n c V raw { ctx with trusted := c.view V.content }).1 = .ok d ∧ Dict.get? d k = some w ∧ x = some w) ∨
    (ctx.validate = true ∧ (x = Dict.get? V.valid k ∨ x = Dict.get? (instImport env n c V raw ctx).2.valid k))

theorem reads_import (hc : c.WF) (hm : NodupValidators c) (o : HInst.Ok h I) (hw : (I.value h).WF) (hr : h.rd I.raw = []) (hfd : Plain c fd) (hna : NotAssigned c fd.name) (raw : Data) (ctx : Ctx) :
    Post (Steps.importData env n c raw ctx) (Cells.of h I) (fun _ s' => ImportReads env n c (I.value h) raw ctx (.str fd.name) (s'.lookup (.str fd.name)))
      (fun _ s' => ImportReads env n c (I.value h) raw ctx (.str fd.name) (s'.lookup (.str fd.name))) := by
  unfold Steps.importData
  refine Post.seq (Post.look (Q := fun t s' => t = c.view (I.value h).content ∧ s' = Cells.of h I) ⟨rfl, rfl⟩) ?_
  rintro t s ⟨rfl, rfl⟩
  have hsim := HInst.convert_sim env n c o raw { ctx with trusted := c.view (I.value h).content }
  have hcw := instConvert_wf (env := env) (n := n) (I := I.value h) (raw := raw) (ctx := { ctx with trusted := c.view (I.value h).content }) hc hm (view_nodup hc _) hw
  have hcs := instConvert_state env n c (I.value h) raw { ctx with trusted := c.view (I.value h).content }
  have hconv := (early_convert (env := env) (n := n) hc o hw hr hfd hna raw { ctx with trusted := c.view (I.value h).content }).exact (Honest.convert _ _ _ _ _)
      (Steps.convert_nil env n c raw { ctx with trusted := c.view (I.value h).content } h I)
  generalize hcv : I.convert env n c h raw { ctx with trusted := c.view (I.value h).content } = q at hsim hconv
  generalize hci : instConvert env n c (I.value h) raw { ctx with trusted := c.view (I.value h).content } = qi at hsim hcw hcs
  obtain ⟨r, h1, J⟩ := q
  obtain ⟨ri, V1⟩ := qi
  obtain ⟨hrr, ⟨o1, _, hv1⟩, hJc⟩ := hsim
  simp only [] at hrr o1 hv1 hJc hconv hcw hcs
  subst hrr
  refine Post.seq (Q' := fun d s' => r = .ok d ∧ Early h I (.str fd.name) s' ∧ s' = Cells.of h1 J) (hconv.mono ?_ ?_) ?_
  · rintro d s' ⟨e, hd, hs⟩
    refine ⟨?_, e, hs⟩
    cases r with
    | ok x => injection hd with hd; rw [hd]
    | error x => cases hd
  · rintro f s' ⟨e, _⟩
    exact .inl (e.reads hr)
  rintro d s' ⟨rfl, e, rfl⟩
  refine Post.seq (Post.look (Q := fun a s' => a = J.converted ∧ s' = Cells.of h1 J) ⟨rfl, rfl⟩) ?_
  rintro a s' ⟨rfl, rfl⟩
  have hdn : Dict.Nodup d := hcw.2
  have hr1 : V1.raw = [] := hcs.2
  have hval : V1.valid = (I.value h).valid := hcs.1
  -- the dict while it is updated
  have hwr : ∀ l, HInst.Ok (h1.wr J.converted ((h1.rd J.converted).update l)) J ∧ J.value (h1.wr J.converted ((h1.rd J.converted).update l)) = { V1 with converted := V1.converted.update l } := by
    intro l
    have := HInst.wr_converted o1 ((h1.rd J.converted).update l)
    refine ⟨this.1, ?_⟩
    rw [this.2.2, hv1, ← hv1]; rfl
  have hread : ∀ l1 l2 : Data, l1 ++ l2 = d → ImportReads env n c (I.value h) raw ctx (.str fd.name) ((Cells.of (h1.wr J.converted ((h1.rd J.converted).update l1)) J).lookup (.str fd.name)) := by
    intro l1 l2 hl
    rw [Cells.lookup_of, (hwr l1).2, lookup_noraw (by exact hr1)]
    simp only []
    rcases get?_prefix (d := V1.converted) (k := Key.str fd.name) hl hdn with he | ⟨w, hg, he⟩
    · left
      rw [he, ← e.reads hr, Cells.lookup_of, hv1, lookup_noraw hr1]
    · right; left
      exact ⟨d, w, by rw [hci], hg, by rw [he]; rfl⟩
  refine Post.seq (Q' := fun _ s' => s' = Cells.of (h1.wr J.converted ((h1.rd J.converted).update d)) J) (Post.writeAt _ rfl fun l1 l2 hl => hread l1 l2 hl) ?_
  rintro _ s' rfl
  cases hvd : ctx.validate with
  | false => exact Post.ret (hread d [] (List.append_nil _))
  | true =>
    simp only [if_true]
    have hw2 : (J.value (h1.wr J.converted ((h1.rd J.converted).update d))).WF := by
      rw [(hwr d).2]
      exact ⟨hcw.1.raw, Dict.nodup_update hcw.1.converted _, hcw.1.valid, hcw.1.stale⟩
    have hr2 : (h1.wr J.converted ((h1.rd J.converted).update d)).rd J.raw = [] := by
      have : (J.value (h1.wr J.converted ((h1.rd J.converted).update d))).raw = [] := by rw [(hwr d).2]; exact hr1
      exact this
    have hfin : (instImport env n c (I.value h) raw ctx).2 = (instValidate env n c { V1 with converted := V1.converted.update d } { convert := false }).2 := by
      unfold instImport
      rw [hci]
      simp only [hvd, if_true]
    have key : ∀ s' : Cells, Mid (h1.wr J.converted ((h1.rd J.converted).update d)) J (.str fd.name)
        (instValidate env n c (J.value (h1.wr J.converted ((h1.rd J.converted).update d))) { convert := false }).2.valid s' →
        ImportReads env n c (I.value h) raw ctx (.str fd.name) (s'.lookup (.str fd.name)) := by
      intro s' m
      rcases m.reads with hx | hx | hx
      · rw [hx]; exact hread d [] (List.append_nil _)
      · rw [hx, (hwr d).2]
        right; right
        exact ⟨hvd, .inl (by rw [← hval])⟩
      · rw [hx, (hwr d).2]
        right; right
        exact ⟨hvd, .inr (by rw [hfin])⟩
    exact (mid_validate (env := env) (n := n) hc (hwr d).1 hw2 hr2 hfd hna { convert := false }).mono (fun _ s' m => key s' m) fun _ s' m => key s' m

theorem reads_set (o : HInst.Ok h I) (hr : h.rd I.raw = []) (hna : NotAssigned c fd.name) (name : String) (v : Val) :
    Post (Steps.setAttr env n c name v) (Cells.of h I)
      (fun _ s' => s'.lookup (.str fd.name) = (I.value h).lookup (.str fd.name) ∨ s'.lookup (.str fd.name) = (setAttr env n c (I.value h) name v).2.lookup (.str fd.name))
      (fun _ s' => s'.lookup (.str fd.name) = (I.value h).lookup (.str fd.name) ∨ s'.lookup (.str fd.name) = (setAttr env n c (I.value h) name v).2.lookup (.str fd.name)) := by
  have hwr : ∀ l, (Cells.of (h.wr I.converted ((h.rd I.converted).update l)) I).lookup (.str fd.name) = (Dict.get? ((I.value h).converted.update l) (.str fd.name)).or (Dict.get? (I.value h).valid (.str fd.name)) := by
    intro l
    rw [Cells.lookup_of, (HInst.wr_converted o _).2.2, lookup_noraw (by exact hr)]
    rfl
  unfold Steps.setAttr setAttr
  cases hf : c.field? name with
  | none => exact Post.raise (.inl rfl)
  | some g =>
    simp only []
    cases hg : g.fget with
    | some f0 =>
      simp only []
      cases hs : g.fset with
      | none => exact Post.raise (.inl rfl)
      | some f =>
        simp only []
        refine Post.seq (Post.ofR (Q := fun w s' => preSet env n g.field v = .ok w ∧ s' = Cells.of h I) (fun w hw => ⟨hw, rfl⟩) (fun _ _ => .inl rfl) (.inl rfl)) ?_
        rintro w s ⟨hw, rfl⟩
        refine Post.seq (Post.ofR (Q := fun a s' => f w = .ok a ∧ s' = Cells.of h I) (fun w hw => ⟨hw, rfl⟩) (fun _ _ => .inl rfl) (.inl rfl)) ?_
        rintro asg s ⟨ha, rfl⟩
        refine Post.seq (Post.look (Q := fun a s' => a = I.converted ∧ s' = Cells.of h I) ⟨rfl, rfl⟩) ?_
        rintro a s ⟨rfl, rfl⟩
        have hno : Key.str fd.name ∉ Dict.keys asg := hna g (List.mem_of_find?_eq_some hf) f hs _ _ ha
        have hkeep : ∀ l1 l2 : List (Key × Val), l1 ++ l2 = asg → (Cells.of (h.wr I.converted ((h.rd I.converted).update l1)) I).lookup (.str fd.name) = (I.value h).lookup (.str fd.name) := by
          intro l1 l2 hl
          rw [hwr, get?_prefix_none hl hno, lookup_noraw (show (I.value h).raw = [] from hr)]
        exact Post.writeAt _ (.inl (hkeep asg [] (List.append_nil _))) fun l1 l2 hl => .inl (hkeep l1 l2 hl)
    | none =>
      simp only []
      refine Post.seq (Post.ofR (Q := fun w s' => preSet env n g.field v = .ok w ∧ s' = Cells.of h I) (fun w hw => ⟨hw, rfl⟩) (fun _ _ => .inl rfl) (.inl rfl)) ?_
      rintro w s ⟨hw, rfl⟩
      refine Post.seq (Post.look (Q := fun a s' => a = I.converted ∧ s' = Cells.of h I) ⟨rfl, rfl⟩) ?_
      rintro a s ⟨rfl, rfl⟩
      rw [hw]
      simp only []
      refine Post.writeAt _ (.inr ?_) fun l1 l2 hl => ?_
      · refine (hwr [(.str name, w)]).trans ?_
        rw [lookup_noraw (by exact hr)]; rfl
      · cases l1 with
        | nil => left; exact (hwr []).trans (lookup_noraw (show (I.value h).raw = [] from hr) _).symm
        | cons x l1 =>
          have hl' : l1 = [] ∧ x = (Key.str name, w) := by
            simp only [List.cons_append, List.cons.injEq, List.append_eq_nil_iff] at hl
            exact ⟨hl.2.1, hl.1⟩
          obtain ⟨rfl, rfl⟩ := hl'
          right
          refine (hwr [(.str name, w)]).trans ?_
          rw [lookup_noraw (by exact hr)]; rfl

theorem holds_delIn {k : Key} {a : Nat} {s : Cells} {E : Fault → Cells → Prop} (hi : E .interrupt s) :
    Post (Steps.delIn k a) s (fun _ s' => s' = { s with heap := (HInst.delIn s.heap k a).2 }) E := by
  unfold Steps.delIn HInst.delIn
  refine Post.seq (Post.look (Q := fun b s' => b = (s.heap.rd a).has k ∧ s' = s) ⟨rfl, rfl⟩) ?_
  rintro b s' ⟨rfl, rfl⟩
  cases hb : (s'.heap.rd a).has k with
  | false => exact Post.ret rfl
  | true => exact Post.seq (Post.store (Q := fun _ s2 => s2 = _) rfl hi) fun _ s2 e => Post.ret e

theorem reads_del (o : HInst.Ok h I) (hw : (I.value h).WF) (hr : h.rd I.raw = []) (x : Key) (name : String) :
    Post (Steps.delAttr c name) (Cells.of h I)
      (fun _ s' => s'.lookup x = (I.value h).lookup x ∨ s'.lookup x = (delAttr c (I.value h) name).2.lookup x)
      (fun _ s' => s'.lookup x = (I.value h).lookup x ∨ s'.lookup x = (delAttr c (I.value h) name).2.lookup x) := by
  unfold Steps.delAttr delAttr
  cases c.field? name with
  | none => exact Post.raise (.inl rfl)
  | some g =>
    simp only []
    split
    · exact Post.raise (.inl rfl)
    · generalize Key.str name = k
      have hsim := (HInst.delete_sim o k).2.value
      simp only [] at hsim
      rw [← hsim]
      have l1 := HInst.delIn_length h k I.stale
      have l2 := HInst.delIn_length (HInst.delIn h k I.stale).2 k I.converted
      have r1 := fun b => HInst.delIn_rd h k I.stale b o.stale
      have r2 := fun b => HInst.delIn_rd (HInst.delIn h k I.stale).2 k I.converted b (by rw [l1]; exact o.converted)
      have r3 := fun b => HInst.delIn_rd (HInst.delIn (HInst.delIn h k I.stale).2 k I.converted).2 k I.raw b (by rw [l2, l1]; exact o.raw)
      have hlook : ∀ g : DictHeap, g.rd I.raw = [] → (Cells.of g I).lookup x = (Dict.get? (g.rd I.converted) x).or (Dict.get? (g.rd I.valid) x) := by
        intro g hg
        rw [Cells.lookup_of, lookup_noraw (show (I.value g).raw = [] from hg)]; rfl
      have h1r : (HInst.delIn h k I.stale).2.rd I.raw = [] := by rw [r1, if_neg o.rs]; exact hr
      have h2r : (HInst.delIn (HInst.delIn h k I.stale).2 k I.converted).2.rd I.raw = [] := by rw [r2, if_neg o.rc]; exact h1r
      have h3r : (HInst.delIn (HInst.delIn (HInst.delIn h k I.stale).2 k I.converted).2 k I.raw).2.rd I.raw = [] := by rw [r3, if_pos rfl, h2r]; rfl
      -- the third step changes nothing that is read
      have h23 : (Cells.of (HInst.delIn (HInst.delIn h k I.stale).2 k I.converted).2 I).lookup x = (I.value (I.delete h k).2).lookup x := by
        have : (I.value (I.delete h k).2).lookup x = (Cells.of (HInst.delIn (HInst.delIn (HInst.delIn h k I.stale).2 k I.converted).2 k I.raw).2 I).lookup x := rfl
        rw [this, hlook _ h2r, hlook _ h3r, r3, r3, if_neg (Ne.symm o.rc), if_neg (Ne.symm o.rv)]
      have hcn : (h.rd I.converted).Nodup := hw.converted
      have h12 : (Cells.of (HInst.delIn h k I.stale).2 I).lookup x = (I.value h).lookup x ∨
          (Cells.of (HInst.delIn h k I.stale).2 I).lookup x = (I.value (I.delete h k).2).lookup x := by
        rw [← h23, hlook _ h1r, hlook _ h2r, ← Cells.lookup_of, hlook _ hr]
        rw [r2, r2, if_pos rfl, if_neg (Ne.symm o.cv), r1, r1, if_neg o.cs]
        by_cases hx : k = x
        · rw [Dict.get?_erase hcn, if_pos hx]
          cases hg : Dict.get? (h.rd I.converted) x with
          | some v => exact .inl rfl
          | none => exact .inr rfl
        · left
          split
          · rename_i e; rw [Dict.get?_erase_ne _ hx, e]
          · rfl
      unfold Steps.delete
      refine Post.seq (Post.look (Q := fun a s' => a = I.stale ∧ s' = Cells.of h I) ⟨rfl, rfl⟩) ?_
      rintro a s ⟨rfl, rfl⟩
      refine Post.seq (holds_delIn (.inl rfl)) ?_
      rintro b1 s rfl
      refine Post.seq (Post.look (Q := fun a s' => a = I.converted ∧ s' = Cells.of (HInst.delIn h k I.stale).2 I) ⟨rfl, rfl⟩) ?_
      rintro a s ⟨rfl, rfl⟩
      refine Post.seq (holds_delIn h12) ?_
      rintro b2 s rfl
      refine Post.seq (Post.look (Q := fun a s' => a = I.raw ∧ s' = Cells.of (HInst.delIn (HInst.delIn h k I.stale).2 k I.converted).2 I) ⟨rfl, rfl⟩) ?_
      rintro a s ⟨rfl, rfl⟩
      refine Post.seq (holds_delIn (.inr h23)) ?_
      rintro b3 s rfl
      split
      · exact Post.ret (.inr rfl)
      · exact Post.raise (.inr rfl)

end
end Verif
