import Verif.Spec.Heap

namespace Tiny
open Spec

/-- `h'` differs from `h` in marks only. -/
def SameBut (h h' : Heap) : Prop := h' = { h with marked := h'.marked }

theorem SameBut.refl (h : Heap) : SameBut h h := rfl

theorem SameBut.children {h h' : Heap} (s : SameBut h h') (o : ObjId) :
    h'.children o = h.children o := by
  rw [s]; rfl

theorem SameBut.list {h h' : Heap} (s : SameBut h h') : h'.list = h.list := by rw [s]

theorem SameBut.trans {a b c : Heap} (s : SameBut a b) (t : SameBut b c) : SameBut a c := by
  unfold SameBut at *
  rw [t, s]

theorem SameBut.pointsTo {h h' : Heap} (s : SameBut h h') : PointsTo h' = PointsTo h := by
  funext o p; simp [PointsTo, s.children]

theorem SameBut.reach {h h' : Heap} (s : SameBut h h') (vs : List Value) (o : ObjId) :
    Reach h' vs o ↔ Reach h vs o := by
  constructor
  · intro r
    induction r with
    | root a b => exact .root a b
    | step _ b ih => exact .step ih (by rw [← s.pointsTo]; exact b)
  · intro r
    induction r with
    | root a b => exact .root a b
    | step _ b ih => exact .step ih (by rw [s.pointsTo]; exact b)

/-- Every child of a marked object is marked. -/
def MClosed (h : Heap) : Prop := ∀ o p, h.marked o = true → PointsTo h o p → h.marked p = true

/-- Every marked object is well-founded for `PointsTo`. -/
def MAcc (h : Heap) : Prop := ∀ o, h.marked o = true → Acc (fun p q => PointsTo h q p) o

/-- What a successful marking of `vs` establishes. -/
structure MarkPost (h h' : Heap) (vs : List Value) : Prop where
  same : SameBut h h'
  mono : ∀ o, h.marked o = true → h'.marked o = true
  sound : ∀ o, h'.marked o = true → h.marked o = true ∨ Reach h vs o
  roots : ∀ v ∈ vs, ∀ o, v.objId? = some o → h'.marked o = true
  closed : MClosed h → MClosed h'
  acc : MClosed h → MAcc h → MAcc h'
  live : ∀ o, h'.marked o = true → h.marked o = true ∨ o ∈ h.list

theorem upd_same {α : Type} (f : Nat → α) (i : Nat) (a : α) : upd f i a i = a := by simp [upd]

theorem reach_mono {h : Heap} {vs ws : List Value} (s : ∀ v ∈ vs, v ∈ ws) {o : ObjId}
    (r : Reach h vs o) : Reach h ws o := by
  induction r with
  | root a b => exact .root (s _ a) b
  | step _ b ih => exact .step ih b

theorem reach_child {h : Heap} {vs : List Value} {o p : ObjId} (r : Reach h vs o)
    (q : Reach h (h.children o) p) : Reach h vs p := by
  induction q with
  | root a b => exact .step r ⟨_, a, b⟩
  | step _ b ih => exact .step ih b

theorem markList_post_of (fuel : Nat)
    (hm : ∀ (h h' : Heap) (v : Value), h.mark fuel v = .ok h' → MarkPost h h' [v]) :
    ∀ (vs : List Value) (h h' : Heap), h.markList fuel vs = .ok h' → MarkPost h h' vs
  | [], h, h', e => by
    simp only [Heap.markList_nil, Heap.markList_cons] at e
    cases e
    exact ⟨rfl, fun _ x => x, fun _ x => .inl x, fun _ x => by simp at x, fun x => x, fun _ x => x,
      fun _ x => .inl x⟩
  | v :: vs, h, h', e => by
    simp only [Heap.markList_nil, Heap.markList_cons] at e
    cases h1 : h.mark fuel v with
    | ok k =>
      rw [h1] at e
      simp only [Res.bind_ok] at e
      have p := hm _ _ _ h1
      have q := markList_post_of fuel hm vs _ _ e
      refine ⟨p.same.trans q.same, fun o x => q.mono o (p.mono o x), ?_, ?_, fun c => q.closed (p.closed c),
        fun c a => q.acc (p.closed c) (p.acc c a), ?_⟩
      · intro o x
        rcases q.sound o x with y | y
        · rcases p.sound o y with z | z
          · exact .inl z
          · exact .inr (reach_mono (by simp) z)
        · exact .inr (reach_mono (by simp +contextual) ((p.same.reach vs o).1 y))
      · intro w hw o ho
        rcases List.mem_cons.1 hw with rfl | hw
        · exact q.mono o (p.roots _ (by simp) o ho)
        · exact q.roots w hw o ho
      · intro o x
        rcases q.live o x with y | y
        · exact p.live o y
        · exact .inr (by rw [← p.same.list]; exact y)
    | abort => rw [h1] at e; cases e
    | ub => rw [h1] at e; cases e
    | limit => rw [h1] at e; cases e
    | timeout => rw [h1] at e; cases e

theorem mark_post : ∀ (fuel : Nat) (h h' : Heap) (v : Value), h.mark fuel v = .ok h' →
    MarkPost h h' [v]
  | 0, h, h', v, e => by simp [Heap.mark_zero, Heap.mark_succ] at e
  | fuel + 1, h, h', v, e => by
    simp only [Heap.mark_zero, Heap.mark_succ] at e
    cases hv : v.objId? with
    | none =>
      rw [hv] at e; cases e
      exact ⟨rfl, fun _ x => x, fun _ x => .inl x, fun w hw o ho => by simp at hw; subst hw; simp [hv] at ho,
        fun x => x, fun _ x => x, fun _ x => .inl x⟩
    | some o =>
      rw [hv] at e
      simp only at e
      by_cases hl : o ∈ h.list
      · rw [if_pos hl] at e
        by_cases hmk : h.marked o = true
        · rw [if_pos hmk] at e; cases e
          exact ⟨rfl, fun _ x => x, fun _ x => .inl x,
            fun w hw p hp => by simp at hw; subst hw; rw [hv] at hp; cases hp; exact hmk,
            fun x => x, fun _ x => x, fun _ x => .inl x⟩
        · rw [if_neg hmk] at e
          cases h1 : h.markList fuel (h.children o) with
          | ok k =>
            rw [h1] at e
            simp only [Res.bind_ok] at e
            cases e
            have q := markList_post_of fuel (mark_post fuel) _ _ _ h1
            have hself : Reach h [v] o := .root (by simp) hv
            have same : SameBut h { k with marked := upd k.marked o true } := by
              have := q.same
              unfold SameBut at *
              rw [this]
            have hch : ∀ p, PointsTo k o p → k.marked p = true := by
              rintro p ⟨w, hw, hp⟩
              rw [q.same.children] at hw
              exact q.roots w hw p hp
            have pt : PointsTo { k with marked := upd k.marked o true } = PointsTo k := rfl
            refine ⟨same, ?_, ?_, ?_, ?_, ?_, ?_⟩
            · intro p hp
              simp only [upd]; split
              · rfl
              · exact q.mono p hp
            · intro p hp
              simp only [upd] at hp
              by_cases hpo : p = o
              · subst hpo; exact .inr hself
              · rw [if_neg hpo] at hp
                rcases q.sound p hp with y | y
                · exact .inl y
                · exact .inr (reach_child hself y)
            · intro w hw p hp
              simp at hw; subst hw
              rw [hv] at hp; cases hp
              simp [upd]
            · intro c a b ha hab
              have ck := q.closed c
              simp only [upd] at ha ⊢
              split
              · rfl
              · by_cases hao : a = o
                · subst hao; exact hch b hab
                · rw [if_neg hao] at ha
                  exact ck a b ha hab
            · intro c ac a ha
              have ack := q.acc c ac
              rw [pt]
              simp only [upd] at ha
              by_cases hao : a = o
              · subst hao
                exact Acc.intro _ (fun b hb => ack b (hch b hb))
              · rw [if_neg hao] at ha
                exact ack a ha
            · intro p hp
              simp only [upd] at hp
              by_cases hpo : p = o
              · subst hpo; exact .inr hl
              · rw [if_neg hpo] at hp
                exact q.live p hp
          | abort => rw [h1] at e; cases e
          | ub => rw [h1] at e; cases e
          | limit => rw [h1] at e; cases e
          | timeout => rw [h1] at e; cases e
      · rw [if_neg hl] at e; cases e

theorem markList_post {fuel : Nat} {vs : List Value} {h h' : Heap}
    (e : h.markList fuel vs = .ok h') : MarkPost h h' vs :=
  markList_post_of fuel (mark_post fuel) vs h h' e

/-- Only `ok`, `ub` (dangling) or `timeout` can come out. -/
theorem markList_cases_of (fuel : Nat)
    (hm : ∀ (h : Heap) (v : Value), (∃ h', h.mark fuel v = .ok h') ∨ h.mark fuel v = .timeout ∨
      (h.mark fuel v = .ub ∧ ∃ o, Reach h [v] o ∧ o ∉ h.list)) :
    ∀ (vs : List Value) (h : Heap), (∃ h', h.markList fuel vs = .ok h') ∨
      h.markList fuel vs = .timeout ∨ (h.markList fuel vs = .ub ∧ ∃ o, Reach h vs o ∧ o ∉ h.list)
  | [], h => .inl ⟨h, by simp [Heap.markList_nil, Heap.markList_cons]⟩
  | v :: vs, h => by
    simp only [Heap.markList_nil, Heap.markList_cons]
    rcases hm h v with ⟨k, e⟩ | e | ⟨e, o, ho, hol⟩
    · rw [e]
      have p := mark_post _ _ _ _ e
      simp only [Res.bind_ok]
      rcases markList_cases_of fuel hm vs k with x | x | ⟨x, o, ho, hol⟩
      · exact .inl x
      · exact .inr (.inl x)
      · refine .inr (.inr ⟨x, o, reach_mono (by simp +contextual) ((p.same.reach vs o).1 ho), ?_⟩)
        rw [← p.same.list]; exact hol
    · rw [e]; exact .inr (.inl rfl)
    · rw [e]; exact .inr (.inr ⟨rfl, o, reach_mono (by simp) ho, hol⟩)

theorem mark_cases : ∀ (fuel : Nat) (h : Heap) (v : Value), (∃ h', h.mark fuel v = .ok h') ∨
    h.mark fuel v = .timeout ∨ (h.mark fuel v = .ub ∧ ∃ o, Reach h [v] o ∧ o ∉ h.list)
  | 0, h, v => .inr (.inl (by simp [Heap.mark_zero, Heap.mark_succ]))
  | fuel + 1, h, v => by
    simp only [Heap.mark_zero, Heap.mark_succ]
    cases hv : v.objId? with
    | none => exact .inl ⟨h, rfl⟩
    | some o =>
      simp only
      have hself : Reach h [v] o := .root (by simp) hv
      by_cases hl : o ∈ h.list
      · rw [if_pos hl]
        by_cases hmk : h.marked o = true
        · rw [if_pos hmk]; exact .inl ⟨_, rfl⟩
        · rw [if_neg hmk]
          rcases markList_cases_of fuel (mark_cases fuel) (h.children o) h with ⟨k, x⟩ | x | ⟨x, p, hp, hpl⟩
          · rw [x]; exact .inl ⟨_, rfl⟩
          · rw [x]; exact .inr (.inl rfl)
          · rw [x]; exact .inr (.inr ⟨rfl, p, reach_child hself hp, hpl⟩)
      · rw [if_neg hl]; exact .inr (.inr ⟨rfl, o, hself, hl⟩)

theorem markList_cases (fuel : Nat) (vs : List Value) (h : Heap) :
    (∃ h', h.markList fuel vs = .ok h') ∨ h.markList fuel vs = .timeout ∨
      (h.markList fuel vs = .ub ∧ ∃ o, Reach h vs o ∧ o ∉ h.list) :=
  markList_cases_of fuel (mark_cases fuel) vs h

/-! ### Running out of depth -/

/-- A path of objects of the list starting from one of the values. -/
def PathFrom (h : Heap) (vs : List Value) : List ObjId → Prop
  | [] => True
  | o :: rest => (∃ v ∈ vs, v.objId? = some o) ∧ o ∈ h.list ∧ PathFrom h (h.children o) rest

theorem SameBut.path {h h' : Heap} (s : SameBut h h') : ∀ (p : List ObjId) (vs : List Value),
    PathFrom h' vs p → PathFrom h vs p
  | [], _, _ => trivial
  | o :: rest, vs, ⟨a, b, c⟩ => ⟨a, by rw [← s.list]; exact b, by
      rw [s.children] at c; exact s.path rest _ c⟩

theorem pathFrom_mono {h : Heap} {vs ws : List Value} (s : ∀ v ∈ vs, v ∈ ws) :
    ∀ {p : List ObjId}, PathFrom h vs p → PathFrom h ws p
  | [], _ => trivial
  | _ :: _, ⟨⟨v, a, b⟩, c⟩ => ⟨⟨v, s v a, b⟩, c⟩

theorem markList_timeout_of (fuel : Nat)
    (hm : ∀ (h : Heap) (v : Value), h.mark fuel v = .timeout →
      ∃ p : List ObjId, p.length = fuel ∧ PathFrom h [v] p) :
    ∀ (vs : List Value) (h : Heap), h.markList fuel vs = .timeout →
      ∃ p : List ObjId, p.length = fuel ∧ PathFrom h vs p
  | [], h, e => by simp [Heap.markList_nil, Heap.markList_cons] at e
  | v :: vs, h, e => by
    simp only [Heap.markList_nil, Heap.markList_cons] at e
    rcases mark_cases fuel h v with ⟨k, x⟩ | x | ⟨x, _⟩
    · rw [x] at e
      obtain ⟨p, hp, hq⟩ := markList_timeout_of fuel hm vs k e
      exact ⟨p, hp, pathFrom_mono (by simp +contextual) ((mark_post _ _ _ _ x).same.path p vs hq)⟩
    · obtain ⟨p, hp, hq⟩ := hm h v x
      exact ⟨p, hp, pathFrom_mono (by simp) hq⟩
    · rw [x] at e; cases e

theorem mark_timeout : ∀ (fuel : Nat) (h : Heap) (v : Value), h.mark fuel v = .timeout →
    ∃ p : List ObjId, p.length = fuel ∧ PathFrom h [v] p
  | 0, h, v, _ => ⟨[], rfl, trivial⟩
  | fuel + 1, h, v, e => by
    simp only [Heap.mark_zero, Heap.mark_succ] at e
    cases hv : v.objId? with
    | none => rw [hv] at e; cases e
    | some o =>
      rw [hv] at e
      simp only at e
      by_cases hl : o ∈ h.list
      · rw [if_pos hl] at e
        by_cases hmk : h.marked o = true
        · rw [if_pos hmk] at e; cases e
        · rw [if_neg hmk] at e
          have e' : h.markList fuel (h.children o) = .timeout := by
            rcases markList_cases fuel (h.children o) h with ⟨k, x⟩ | x | ⟨x, _⟩
            · rw [x] at e; cases e
            · exact x
            · rw [x] at e; cases e
          obtain ⟨p, hp, hq⟩ := markList_timeout_of fuel (mark_timeout fuel) _ h e'
          exact ⟨o :: p, by simp [hp], ⟨v, by simp, hv⟩, hl, hq⟩
      · rw [if_neg hl] at e; cases e

theorem markList_timeout {fuel : Nat} {vs : List Value} {h : Heap}
    (e : h.markList fuel vs = .timeout) : ∃ p : List ObjId, p.length = fuel ∧ PathFrom h vs p :=
  markList_timeout_of fuel (mark_timeout fuel) vs h e

theorem path_mem_list {h : Heap} : ∀ (p : List ObjId) (vs : List Value), PathFrom h vs p →
    ∀ o ∈ p, o ∈ h.list
  | [], _, _, o, ho => by simp at ho
  | x :: rest, vs, ⟨_, b, c⟩, o, ho => by
    rcases List.mem_cons.1 ho with rfl | ho
    · exact b
    · exact path_mem_list rest _ c o ho

theorem path_reach {h : Heap} : ∀ (p : List ObjId) (vs : List Value), PathFrom h vs p →
    ∀ o ∈ p, Reach h vs o
  | [], _, _, o, ho => by simp at ho
  | x :: rest, vs, ⟨⟨v, hv, hx⟩, _, c⟩, o, ho => by
    have hr : Reach h vs x := .root hv hx
    rcases List.mem_cons.1 ho with rfl | ho
    · exact hr
    · exact reach_child hr (path_reach rest _ c o ho)

theorem path_dup_cycle {h : Heap} : ∀ (p : List ObjId) (vs : List Value), PathFrom h vs p →
    ¬ p.Nodup → ReachableCycle h vs
  | [], _, _, hn => absurd List.nodup_nil hn
  | x :: rest, vs, ⟨⟨v, hv, hx⟩, _, c⟩, hn => by
    have hr : Reach h vs x := .root hv hx
    by_cases hxr : x ∈ rest
    · exact ⟨x, hr, path_reach rest _ c x hxr⟩
    · have : ¬ rest.Nodup := fun hnr => hn (List.nodup_cons.2 ⟨hxr, hnr⟩)
      obtain ⟨o, a, b⟩ := path_dup_cycle rest _ c this
      exact ⟨o, reach_child hr a, b⟩

theorem nodup_length_le : ∀ (p l : List ObjId), p.Nodup → (∀ o ∈ p, o ∈ l) → p.length ≤ l.length
  | [], l, _, _ => by simp
  | x :: rest, l, hn, hs => by
    have hx : x ∈ l := hs x (by simp)
    have h1 := List.nodup_cons.1 hn
    have := nodup_length_le rest (l.erase x) h1.2 (by
      intro o ho
      have hox : o ≠ x := fun e => h1.1 (e ▸ ho)
      exact (List.mem_erase_of_ne hox).2 (hs o (by simp [ho])))
    rw [List.length_erase_of_mem hx] at this
    have hp : 0 < l.length := List.length_pos_of_mem hx
    simp; omega

/-- A recursion deeper than the number of objects means a cycle. -/
theorem timeout_cycle {h : Heap} {vs : List Value}
    (e : h.markList (h.list.length + 1) vs = .timeout) : ReachableCycle h vs := by
  obtain ⟨p, hp, hq⟩ := markList_timeout e
  apply path_dup_cycle p vs hq
  intro hn
  have := nodup_length_le p h.list hn (path_mem_list p vs hq)
  omega

theorem acc_no_self {h : Heap} {o : ObjId} (a : Acc (fun p q => PointsTo h q p) o) :
    ¬ Reach h (h.children o) o := by
  induction a with
  | intro o _ ih =>
    intro r
    -- the first step of the cycle is a child `c` with `c` reaching `o`, hence itself
    have key : ∀ q, Reach h (h.children o) q → ∃ c, PointsTo h o c ∧ (c = q ∨ Reach h (h.children c) q) := by
      intro q r
      induction r with
      | root a b => exact ⟨_, ⟨_, a, b⟩, .inl rfl⟩
      | step a b ih =>
        obtain ⟨c, hc, hd⟩ := ih
        refine ⟨c, hc, .inr ?_⟩
        rcases hd with rfl | hd
        · obtain ⟨v, hv, hp⟩ := b; exact .root hv hp
        · exact .step hd b
    obtain ⟨c, hc, hd⟩ := key o r
    rcases hd with rfl | hd
    · exact ih c hc r
    · exact ih c hc (by
        have : Reach h (h.children c) c := .step hd hc
        exact this)

theorem MClosed.reach {h : Heap} {vs : List Value} (c : MClosed h)
    (hr : ∀ v ∈ vs, ∀ o, v.objId? = some o → h.marked o = true) {o : ObjId} (r : Reach h vs o) :
    h.marked o = true := by
  induction r with
  | root a b => exact hr _ a _ b
  | step _ b ih => exact c _ _ ih b

/-- Marking from a clean heap: the marked objects are exactly the reachable ones, and none of them is on
a cycle. -/
theorem marked_iff_reach {fuel : Nat} {vs : List Value} {h h' : Heap}
    (h0 : ∀ o, h.marked o = false) (e : h.markList fuel vs = .ok h') (o : ObjId) :
    (h'.marked o = true ↔ Reach h vs o) ∧ (h'.marked o = true → o ∈ h.list) := by
  have p := markList_post e
  have c0 : MClosed h := fun a b ha => by rw [h0 a] at ha; cases ha
  refine ⟨⟨fun hm => ?_, fun r => ?_⟩, fun hm => ?_⟩
  · rcases p.sound o hm with x | x
    · rw [h0 o] at x; cases x
    · exact x
  · exact (p.closed c0).reach p.roots ((p.same.reach vs o).2 r)
  · rcases p.live o hm with x | x
    · rw [h0 o] at x; cases x
    · exact x

theorem ok_no_cycle {fuel : Nat} {vs : List Value} {h h' : Heap}
    (h0 : ∀ o, h.marked o = false) (e : h.markList fuel vs = .ok h') : ¬ ReachableCycle h vs := by
  rintro ⟨o, r, s⟩
  have p := markList_post e
  have c0 : MClosed h := fun a b ha => by rw [h0 a] at ha; cases ha
  have a0 : MAcc h := fun a ha => by rw [h0 a] at ha; cases ha
  have hm := ((marked_iff_reach h0 e o).1).2 r
  have := p.acc c0 a0 o hm
  rw [p.same.pointsTo] at this
  exact acc_no_self this s

/-! ### Sweeping -/

theorem sweepLoop_spec : ∀ (l : List ObjId) (h : Heap), l.Nodup →
    (h.sweepLoop l).2 = l.filter (fun o => h.marked o) ∧
    (h.sweepLoop l).1 = { h with
      marked := fun o => h.marked o && !l.contains o
      numObjects := h.numObjects - (l.filter (fun o => !h.marked o)).length
      freed := h.freed ++ l.filter (fun o => !h.marked o) }
  | [], h, _ => by simp [Heap.sweepLoop]
  | o :: rest, h, hn => by
    have hn' := List.nodup_cons.1 hn
    by_cases hm : h.marked o = true
    · have ih := sweepLoop_spec rest { h with marked := upd h.marked o false } hn'.2
      have hf1 : rest.filter (fun p => upd h.marked o false p) = rest.filter (fun p => h.marked p) := by
        apply List.filter_congr
        intro p hp
        have : p ≠ o := fun e => hn'.1 (e ▸ hp)
        simp [upd, this]
      have hf2 : rest.filter (fun p => !upd h.marked o false p) = rest.filter (fun p => !h.marked p) := by
        apply List.filter_congr
        intro p hp
        have : p ≠ o := fun e => hn'.1 (e ▸ hp)
        simp [upd, this]
      simp only [Heap.sweepLoop, hm, if_true]
      rw [ih.1, ih.2]
      simp only [hf1, hf2]
      constructor
      · simp [hm]
      · have : (fun p => upd h.marked o false p && !rest.contains p) =
            (fun p => h.marked p && !(o :: rest).contains p) := by
          funext p
          by_cases hp : p = o
          · subst hp; simp [upd]
          · have : (p == o) = false := by simpa using hp
            simp [upd, hp, List.contains_cons]
        rw [this]
        simp only [hm, Bool.not_true, Bool.false_eq_true, not_false_eq_true,
          List.filter_cons_of_neg]
    · have hm' : h.marked o = false := by simpa using hm
      have ih := sweepLoop_spec rest
        { h with numObjects := h.numObjects - 1, freed := h.freed ++ [o] } hn'.2
      simp only [Heap.sweepLoop, hm', Bool.false_eq_true, if_false]
      rw [ih.1, ih.2]
      constructor
      · simp [hm']
      · have : (fun p => h.marked p && !rest.contains p) =
            (fun p => h.marked p && !(o :: rest).contains p) := by
          funext p
          by_cases hp : p = o
          · subst hp; simp [hm']
          · simp [List.contains_cons, hp]
        simp only [this, hm', Bool.not_false, List.filter_cons_of_pos, List.length_cons,
          List.append_assoc, List.singleton_append]
        congr 1
        push_cast
        omega

theorem filter_len_add (l : List ObjId) (f : ObjId → Bool) :
    (l.filter f).length + (l.filter (fun o => !f o)).length = l.length := by
  induction l with
  | nil => rfl
  | cons a l ih => by_cases h : f a = true <;> simp [h] <;> omega

/-- Everything about one collection that succeeds. -/
theorem collect_spec {h h' : Heap} {roots : List Value} (w : WfHeap h roots)
    (e : h.collect roots = .ok h') :
    (∀ o, o ∈ h'.list ↔ Reach h roots o) ∧ h'.list.Sublist h.list ∧
    (∃ dead, h'.freed = h.freed ++ dead ∧ dead.Sublist h.list ∧ ∀ o, o ∈ dead ↔ o ∈ h.list ∧ ¬ Reach h roots o) ∧
    h'.numObjects = h'.list.length ∧ h'.maxNumObjects = 2 * h'.list.length ∧
    (∀ o, h'.marked o = false) ∧ h'.obj = h.obj ∧ h'.natRefs = h.natRefs ∧ h'.next = h.next := by
  unfold Heap.collect at e
  cases hm : h.markList (h.list.length + 1) roots with
  | ok k =>
    rw [hm] at e
    simp only [Res.bind_ok, Heap.sweep] at e
    have p := markList_post hm
    have hlist : k.list = h.list := p.same.list
    have sp := sweepLoop_spec k.list k (hlist ▸ w.nodup)
    have hmr := fun o => marked_iff_reach w.unmarked hm o
    injection e with e
    have hk1 : k.numObjects = h.numObjects := by rw [p.same]
    have hk2 : k.freed = h.freed := by rw [p.same]
    have hk3 : k.obj = h.obj := by rw [p.same]
    have hk4 : k.natRefs = h.natRefs := by rw [p.same]
    have hk5 : k.next = h.next := by rw [p.same]
    have hl' : h'.list = h.list.filter (fun o => k.marked o) := by rw [← e, ← hlist]; exact sp.1
    have hf' : h'.freed = h.freed ++ h.list.filter (fun o => !k.marked o) := by
      rw [← e, ← hlist, ← hk2]; simp only [sp.2]
    have hn' : h'.numObjects = h.numObjects - (h.list.filter (fun o => !k.marked o)).length := by
      rw [← e, ← hlist, ← hk1]; simp only [sp.2]
    have hcount : h'.numObjects = h'.list.length := by
      rw [hn', hl', w.count]
      have := filter_len_add h.list (fun o => k.marked o)
      omega
    refine ⟨?_, ?_, ⟨_, hf', List.filter_sublist, ?_⟩, hcount, ?_, ?_, ?_, ?_, ?_⟩
    · intro o
      rw [hl', List.mem_filter]
      exact ⟨fun x => (hmr o).1.1 x.2, fun r => ⟨w.noDangling o r, (hmr o).1.2 r⟩⟩
    · rw [hl']; exact List.filter_sublist
    · intro o
      rw [List.mem_filter]
      constructor
      · rintro ⟨a, b⟩
        refine ⟨a, fun r => ?_⟩
        rw [(hmr o).1.2 r] at b; cases b
      · rintro ⟨a, b⟩
        refine ⟨a, ?_⟩
        cases hb : k.marked o with
        | true => exact absurd ((hmr o).1.1 hb) b
        | false => rfl
    · have : h'.maxNumObjects = h'.numObjects * 2 := by rw [← e]
      rw [this, hcount]; omega
    · intro o
      have : h'.marked o = (k.marked o && !k.list.contains o) := by rw [← e]; simp only [sp.2]
      rw [this]
      cases hb : k.marked o with
      | false => rfl
      | true =>
        have := (hmr o).2 hb
        simp [hlist, this]
    · rw [← e]; simp only [sp.2]; exact hk3
    · rw [← e]; simp only [sp.2]; exact hk4
    · rw [← e]; simp only [sp.2]; exact hk5
  | abort => rw [hm] at e; cases e
  | ub => rw [hm] at e; cases e
  | limit => rw [hm] at e; cases e
  | timeout => rw [hm] at e; cases e

theorem reach_congr {h h' : Heap} (ho : h'.obj = h.obj) (hn : h'.natRefs = h.natRefs)
    (vs : List Value) (o : ObjId) : Reach h' vs o ↔ Reach h vs o := by
  have hc : ∀ o, h'.children o = h.children o := by intro o; simp [Heap.children, ho, hn]
  have hp : PointsTo h' = PointsTo h := by funext a b; simp [PointsTo, hc]
  constructor
  · intro r
    induction r with
    | root a b => exact .root a b
    | step _ b ih => exact .step ih (by rw [← hp]; exact b)
  · intro r
    induction r with
    | root a b => exact .root a b
    | step _ b ih => exact .step ih (by rw [hp]; exact b)

theorem collect_wf {h h' : Heap} {roots : List Value} (w : WfHeap h roots)
    (e : h.collect roots = .ok h') : WfHeap h' roots := by
  obtain ⟨c1, c2, ⟨dead, c3, c3', c3''⟩, c4, c5, c6, c7, c8, c9⟩ := collect_spec w e
  refine ⟨w.nodup.sublist c2, c4, c6, ?_, ?_, ?_, ?_, ?_⟩
  · intro o ho; rw [c9]; exact w.fresh o (c2.subset ho)
  · rw [c3, List.nodup_append]
    refine ⟨w.freedNodup, w.nodup.sublist c3', ?_⟩
    rintro a ha b hb rfl
    exact (w.freedFresh a ha).2 (c3'.subset hb)
  · intro o ho
    rw [c3, List.mem_append] at ho
    rw [c9]
    rcases ho with ho | ho
    · exact ⟨(w.freedFresh o ho).1, fun hm => (w.freedFresh o ho).2 (c2.subset hm)⟩
    · exact ⟨w.fresh o (c3'.subset ho), fun hm => ((c3'' o).1 ho).2 ((c1 o).1 hm)⟩
  · intro o ho
    rw [c9] at ho
    rw [c3, List.mem_append]
    rcases w.complete o ho with x | x
    · by_cases r : Reach h roots o
      · exact .inl ((c1 o).2 r)
      · exact .inr (.inr ((c3'' o).2 ⟨x, r⟩))
    · exact .inr (.inl x)
  · intro o r
    exact (c1 o).2 ((reach_congr c7 c8 roots o).1 r)

theorem collect_ok_iff {h : Heap} {roots : List Value} (w : WfHeap h roots) :
    (∃ h', h.collect roots = .ok h') ↔ ¬ ReachableCycle h roots := by
  constructor
  · rintro ⟨h', e⟩
    unfold Heap.collect at e
    rcases markList_cases (h.list.length + 1) roots h with ⟨k, x⟩ | x | ⟨x, _⟩
    · exact ok_no_cycle w.unmarked x
    · rw [x] at e; cases e
    · rw [x] at e; cases e
  · intro nc
    unfold Heap.collect
    rcases markList_cases (h.list.length + 1) roots h with ⟨k, x⟩ | x | ⟨x, o, ho, hol⟩
    · rw [x]; exact ⟨_, rfl⟩
    · exact absurd (timeout_cycle x) nc
    · exact absurd (w.noDangling o ho) hol

/-- With a cycle in reach no recursion depth is enough. -/
theorem cycle_never_ends {h : Heap} {roots : List Value} (w : WfHeap h roots)
    (c : ReachableCycle h roots) (depth : Nat) : h.markList depth roots = .timeout := by
  rcases markList_cases depth roots h with ⟨k, x⟩ | x | ⟨x, o, ho, hol⟩
  · exact absurd c (ok_no_cycle w.unmarked x)
  · exact x
  · exact absurd (w.noDangling o ho) hol

end Tiny
