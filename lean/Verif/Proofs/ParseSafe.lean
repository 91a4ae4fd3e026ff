import Verif.Proofs.ParseLim

/-!
# The parser terminates, and keeps what the symbol table operations keep

A token stream of the lexer ends in a token which repeats for ever: end of file, or an error at a character the
lexer does not know. On such a stream no parsing function loops; and no operation of the symbol table is called
outside the phase it is meant for.
-/

namespace Tiny

/-- End of file and lexer errors. -/
def sticky (k : Tok) : Prop := k = .eofTok ∨ k = .lexerError

instance (k : Tok) : Decidable (sticky k) := inferInstanceAs (Decidable (_ ∨ _))

/-- The stream ends in (at least) three such tokens. -/
def Tail3 (ts : List Tk) : Prop := ∃ us a b c, ts = us ++ [a, b, c] ∧ sticky a.kind ∧ sticky b.kind ∧ sticky c.kind

theorem Tail3.cons {ts : List Tk} (h : Tail3 ts) : ∃ t ts', ts = t :: ts' := by
  obtain ⟨us, a, b, c, rfl, -⟩ := h
  cases us
  · exact ⟨_, _, rfl⟩
  · exact ⟨_, _, rfl⟩

theorem Tail3.split {t : Tk} {ts : List Tk} (h : Tail3 (t :: ts)) :
    Tail3 ts ∨ sticky t.kind ∧ ∃ b c, ts = [b, c] ∧ sticky b.kind ∧ sticky c.kind := by
  obtain ⟨us, a, b, c, h, ha, hb, hc⟩ := h
  cases us with
  | nil => cases h; exact .inr ⟨ha, _, _, rfl, hb, hc⟩
  | cons u us => cases h; exact .inl ⟨us, a, b, c, rfl, ha, hb, hc⟩

theorem Tail3.tail {t : Tk} {ts : List Tk} (h : Tail3 (t :: ts)) (ht : ¬ sticky t.kind) : Tail3 ts :=
  h.split.resolve_right fun h => ht h.1

theorem Tail3.next {t : Tk} {ts : List Tk} (h : Tail3 (t :: ts)) : ∃ u us, ts = u :: us := by
  rcases h.split with h | ⟨-, b, c, rfl, -⟩
  · exact h.cons
  · exact ⟨_, _, rfl⟩

/-- The same, and all string literals of the stream are among `L`. -/
def TailL (L : Name → Prop) (ts : List Tk) : Prop := Tail3 ts ∧ ∀ t ∈ ts, t.kind = .string → L t.lexeme

theorem TailL.cons {L : Name → Prop} {ts : List Tk} (h : TailL L ts) : ∃ t ts', ts = t :: ts' := h.1.cons

theorem TailL.split {L : Name → Prop} {t : Tk} {ts : List Tk} (h : TailL L (t :: ts)) :
    TailL L ts ∨ sticky t.kind ∧ ∃ b c, ts = [b, c] ∧ sticky b.kind ∧ sticky c.kind :=
  h.1.split.imp_left fun k => ⟨k, fun t ht => h.2 t (List.mem_cons_of_mem _ ht)⟩

theorem TailL.tail {L : Name → Prop} {t : Tk} {ts : List Tk} (h : TailL L (t :: ts)) (ht : ¬ sticky t.kind) : TailL L ts :=
  h.split.resolve_right fun h => ht h.1

theorem TailL.next {L : Name → Prop} {t : Tk} {ts : List Tk} (h : TailL L (t :: ts)) : ∃ u us, ts = u :: us := h.1.next

section
variable {σ V S T F α β : Type}

/-- Where the parser is: between statements or inside one, outside or inside (`true`) a function; in the head of a
function; after the variable `v` was declared; in the struct `n`. -/
inductive Phase (V : Type) where
  | stmt (b : Bool)
  | header
  | decl (b : Bool) (v : V)
  | struct (n : Name)

/-- From `P`, the action has no undefined behaviour and comes to an end; then `Q` holds, or, after an error, `E`, or
it failed an assertion and `A` holds. -/
def Triple {τ : Type} (A : Prop) (E : τ → Prop) (P : τ → Prop) (a : Act τ α) (Q : α → τ → Prop) : Prop :=
  ∀ s, P s → match a s with
    | .ok x s' => Q x s'
    | .err s' => E s'
    | .abort => A
    | .ub => False
    | .timeout => False

/-- What is required of the operations. -/
structure OpsSafe (L : Name → Prop) (A : Prop) (E : σ → Prop) (ph : Phase V → σ → Prop) (o : Ops σ V S T F) : Prop where
  err : ∀ p s, ph p s → E s
  ref : ∀ n b, Triple A E (ph (.stmt b)) (o.ref n) fun _ => ph (.stmt b)
  str : ∀ n b, L n → Triple A E (ph (.stmt b)) (o.str n) fun _ => ph (.stmt b)
  struct : ∀ n b, Triple A E (ph (.stmt b)) (o.struct n) fun _ => ph (.stmt b)
  named : ∀ n p, Triple A E (ph p) (o.named n) fun _ => ph p
  nullable : ∀ t p, Triple A E (ph p) (o.nullable t) fun _ => ph p
  openScope : ∀ b, Triple A E (ph (.stmt b)) o.openScope fun _ => ph (.stmt b)
  closeScope : ∀ b, Triple A E (ph (.stmt b)) o.closeScope fun _ => ph (.stmt b)
  noFunc : ∀ b, Triple A E (ph (.stmt b)) o.noFunc fun _ s => b = false ∧ ph (.stmt b) s
  inFunc : ∀ b, Triple A E (ph (.stmt b)) o.inFunc fun _ s => b = true ∧ ph (.stmt b) s
  valueFunc : Triple A E (ph (.stmt true)) o.valueFunc fun _ => ph (.stmt true)
  topLevel : ∀ b, Triple A E (ph (.stmt b)) o.topLevel fun _ => ph (.stmt b)
  beginFunc : ∀ n, Triple A E (ph (.stmt false)) (o.beginFunc n) fun _ => ph .header
  params : ∀ ps, Triple A E (ph .header) (o.params ps) fun _ => ph .header
  setRet : ∀ r, Triple A E (ph .header) (o.setRet r) fun _ => ph (.stmt true)
  endFunc : Triple A E (ph (.stmt true)) o.endFunc fun _ => ph (.stmt false)
  declare : ∀ n b, Triple A E (ph (.stmt b)) (o.declare n) fun v => ph (.decl b v)
  setTag : ∀ b v t, Triple A E (ph (.decl b v)) (o.setTag v t) fun _ => ph (.decl b v)
  declared : ∀ b v s, ph (.decl b v) s → ph (.stmt b) s
  const : ∀ n l b, Triple A E (ph (.stmt b)) (o.const n l) fun _ => ph (.stmt b)
  beginStruct : ∀ n, Triple A E (ph (.stmt false)) (o.beginStruct n) fun _ => ph (.struct n)
  checkField : ∀ n f, Triple A E (ph (.struct n)) (o.checkField n f) fun _ => ph (.struct n)
  addField : ∀ n f t, Triple A E (ph (.struct n)) (o.addField n f t) fun _ => ph (.struct n)
  endStruct : ∀ n, Triple A E (ph (.struct n)) (o.endStruct n) fun _ => ph (.stmt false)

/-- The same for one run of the parser. -/
def Safe (A : Prop) (E : σ → Prop) (m : Act (PS σ) α) (p : PS σ) (Q : α → PS σ → Prop) : Prop :=
  match m p with
  | .ok x q => Q x q
  | .err q => E q.st
  | .abort => A
  | .ub => False
  | .timeout => False

variable {L : Name → Prop} {A : Prop} {E : σ → Prop}

theorem Safe.bind {m : Act (PS σ) α} {f : α → Act (PS σ) β} {p : PS σ} {Q : α → PS σ → Prop} {R : β → PS σ → Prop}
    (h : Safe A E m p Q) (hf : ∀ x q, Q x q → Safe A E (f x) q R) : Safe A E (m >>= f) p R := by
  unfold Safe at *
  rw [Act.bind_apply]
  cases hm : m p with
  | ok x q => rw [hm] at h; exact hf x q h
  | _ => rw [hm] at h; exact h

theorem Safe.imp {m : Act (PS σ) α} {p : PS σ} {Q R : α → PS σ → Prop}
    (h : Safe A E m p Q) (hf : ∀ x q, Q x q → R x q) : Safe A E m p R := by
  unfold Safe at *
  cases hm : m p with
  | ok x q => rw [hm] at h; exact hf x q h
  | _ => rw [hm] at h; exact h

theorem Safe.pure {a : α} {p : PS σ} {Q : α → PS σ → Prop} (h : Q a p) : Safe A E (Pure.pure a) p Q := h

theorem Safe.reject {p : PS σ} {Q : α → PS σ → Prop} (h : E p.st) : Safe A E Tiny.reject p Q := h

theorem Safe.lift {a : Act σ α} {f : α → Act (PS σ) β} {ts : List Tk} {s : σ} {P : σ → Prop} {Q : α → σ → Prop}
    {R : β → PS σ → Prop} (h : Triple A E P a Q) (hs : P s) (hf : ∀ x s', Q x s' → Safe A E (f x) ⟨ts, s'⟩ R) :
    Safe A E (Tiny.lift a >>= f) ⟨ts, s⟩ R := by
  have := h s hs
  unfold Safe
  rw [Act.bind_apply, Tiny.lift]
  dsimp only
  cases ha : a s with
  | ok x s' => rw [ha] at this; exact hf x s' this
  | _ => rw [ha] at this; exact this

theorem Safe.cur {f : Tk → Act (PS σ) β} {t : Tk} {ts : List Tk} {s : σ} {R : β → PS σ → Prop}
    (h : Safe A E (f t) ⟨t :: ts, s⟩ R) : Safe A E (Tiny.cur >>= f) ⟨t :: ts, s⟩ R := h

/-- Leaving a token. -/
theorem Safe.next {f : Unit → Act (PS σ) β} {t : Tk} {ts : List Tk} {s : σ} {R : β → PS σ → Prop} (ht : TailL L (t :: ts))
    (hf : ∀ u us, ts = u :: us → Safe A E (f ()) ⟨u :: us, s⟩ R) : Safe A E (Tiny.next >>= f) ⟨t :: ts, s⟩ R := by
  obtain ⟨u, us, rfl⟩ := ht.next
  exact hf u us rfl

/-- Leaving a token which is not sticky. -/
theorem Safe.skip {f : Unit → Act (PS σ) β} {t : Tk} {ts : List Tk} {s : σ} {R : β → PS σ → Prop} (ht : TailL L (t :: ts))
    (hk : ¬ sticky t.kind) (hf : TailL L ts → ts ≠ [] → Safe A E (f ()) ⟨ts, s⟩ R) :
    Safe A E (Tiny.next >>= f) ⟨t :: ts, s⟩ R := by
  obtain ⟨u, us, rfl⟩ := ht.next
  exact hf (ht.tail hk) (by simp)

theorem Safe.expect {k : Tok} {f : Unit → Act (PS σ) β} {t : Tk} {ts : List Tk} {s : σ} {R : β → PS σ → Prop} (hs : E s)
    (hf : t.kind = k → Safe A E (f ()) ⟨t :: ts, s⟩ R) : Safe A E (Tiny.expect k >>= f) ⟨t :: ts, s⟩ R := by
  by_cases hk : t.kind = k
  · have : (Tiny.expect k >>= f) ⟨t :: ts, s⟩ = f () ⟨t :: ts, s⟩ := by
      subst hk
      simp only [Tiny.expect, Act.bind_apply, Tiny.cur, if_true]
      rfl
    unfold Safe
    rw [this]
    exact hf hk
  · have : (Tiny.expect k >>= f) ⟨t :: ts, s⟩ = .err ⟨[], s⟩ := by
      simp only [Tiny.expect, Act.bind_apply, Tiny.cur, hk, if_false]
      rfl
    unfold Safe
    rw [this]
    exact hs

theorem Safe.getExpect {k : Tok} {f : Unit → Act (PS σ) β} {t : Tk} {ts : List Tk} {s : σ} {R : β → PS σ → Prop}
    (hs : E s) (ht : TailL L (t :: ts)) (hf : ∀ u us, ts = u :: us → u.kind = k → Safe A E (f ()) ⟨u :: us, s⟩ R) :
    Safe A E (Tiny.getExpect k >>= f) ⟨t :: ts, s⟩ R := by
  unfold Tiny.getExpect
  rw [bind_assoc]
  refine Safe.next ht fun u us hu => Safe.expect hs fun hk => hf u us hu hk

variable {ph : Phase V → σ → Prop} {o : Ops σ V S T F}

/-- What holds after reading something. -/
def Fine (L : Name → Prop) (ph : Phase V → σ → Prop) (p : Phase V) (n : Nat) (q : PS σ) : Prop :=
  TailL L q.toks ∧ q.toks.length < n ∧ ph p q.st

theorem nostick {t : Tk} {k : Tok} (h : t.kind = k) (hk : ¬ sticky k) : ¬ sticky t.kind := h ▸ hk

variable (hO : OpsSafe L A E ph o)
include hO

theorem safe_type {ts : List Tk} {s : σ} {p : Phase V} (ht : TailL L ts) (hs : ph p s) :
    Safe A E (parseType o) ⟨ts, s⟩ fun _ q => Fine L ph p ts.length q := by
  obtain ⟨t, ts, rfl⟩ := ht.cons
  rw [parseType]
  refine Safe.expect (hO.err _ _ hs) fun hk => Safe.cur (Safe.lift (hO.named _ p) hs fun x s' hs' => ?_)
  refine Safe.skip ht (nostick hk (by decide)) fun ht' _ => ?_
  obtain ⟨u, us, rfl⟩ := ht'.cons
  refine Safe.cur ?_
  by_cases hq : u.kind = .question
  · rw [if_pos hq]
    refine Safe.lift (hO.nullable _ p) hs' fun x s2 hs2 => Safe.skip ht' (nostick hq (by decide)) fun h _ => ?_
    exact Safe.pure ⟨h, by simp; omega, hs2⟩
  · rw [if_neg hq]
    exact Safe.pure ⟨ht', by simp, hs'⟩

/-- What is proved of the functions for expressions, on streams shorter than `n`. -/
structure SafeE (L : Name → Prop) (A : Prop) (E : σ → Prop) (ph : Phase V → σ → Prop) (o : Ops σ V S T F) (n : Nat) : Prop where
  expr : ∀ {ts : List Tk} {s : σ} {b}, TailL L ts → ts.length < n → ph (.stmt b) s →
    Safe A E (PE o) ⟨ts, s⟩ fun _ q => Fine L ph (.stmt b) ts.length q
  fac : ∀ {ts : List Tk} {s : σ} {b}, TailL L ts → ts.length < n → ph (.stmt b) s →
    Safe A E (PF o) ⟨ts, s⟩ fun _ q => Fine L ph (.stmt b) ts.length q
  val : ∀ {ts : List Tk} {s : σ} {b}, TailL L ts → ts.length < n → ph (.stmt b) s →
    Safe A E (PV o) ⟨ts, s⟩ fun _ q => Fine L ph (.stmt b) ts.length q
  bin : ∀ {ts : List Tk} {s : σ} {b p x}, TailL L ts → ts.length < n → ph (.stmt b) s → 0 ≤ p →
    Safe A E (PB o p x) ⟨ts, s⟩ fun _ q => Fine L ph (.stmt b) (ts.length + 1) q
  suf : ∀ {ts : List Tk} {s : σ} {b x}, TailL L ts → ts.length < n → ph (.stmt b) s →
    Safe A E (PSx o x) ⟨ts, s⟩ fun _ q => Fine L ph (.stmt b) (ts.length + 1) q
  dot : ∀ {ts : List Tk} {s : σ} {b x}, TailL L ts → ts.length < n → ph (.stmt b) s →
    Safe A E (PD o x) ⟨ts, s⟩ fun _ q => Fine L ph (.stmt b) (ts.length + 1) q
  call : ∀ {t : Tk} {ts : List Tk} {s : σ} {b}, TailL L (t :: ts) → ¬ sticky t.kind → (t :: ts).length < n →
    ph (.stmt b) s → Safe A E (PC o) ⟨t :: ts, s⟩ fun _ q => Fine L ph (.stmt b) ts.length q
  args : ∀ {ts : List Tk} {s : σ} {b}, TailL L ts → ts.length < n → ph (.stmt b) s →
    Safe A E (PA o) ⟨ts, s⟩ fun _ q => Fine L ph (.stmt b) (ts.length + 1) q ∧ ∃ t ts', q.toks = t :: ts' ∧ t.kind = .closeParen
  init : ∀ {ts : List Tk} {s : σ} {b}, TailL L ts → ts.length < n → ph (.stmt b) s →
    Safe A E (PI o) ⟨ts, s⟩ fun _ q => Fine L ph (.stmt b) (ts.length + 1) q ∧ ∃ t ts', q.toks = t :: ts' ∧ t.kind = .closeCurly

variable {n : Nat} (ih : SafeE L A E ph o n)
include ih

theorem safe_dot {ts : List Tk} {s : σ} {b : Bool} {x : PExpr V S T × Nat} (ht : TailL L ts) (hn : ts.length < n + 1)
    (hs : ph (.stmt b) s) : Safe A E (PD o x) ⟨ts, s⟩ fun _ q => Fine L ph (.stmt b) (ts.length + 1) q := by
  obtain ⟨t, ts, rfl⟩ := ht.cons
  rw [PD_eq]
  refine Safe.cur ?_
  by_cases hd : t.kind = .dot
  · rw [if_pos hd]
    refine Safe.getExpect (hO.err _ _ hs) ht fun f us hf hfk => Safe.cur ?_
    subst hf
    have h1 := ht.tail (nostick hd (by decide))
    refine Safe.skip h1 (nostick hfk (by decide)) fun h2 _ => ?_
    refine (ih.dot h2 (by simp at hn; omega) hs).imp fun _ q hq => ⟨hq.1, ?_, hq.2.2⟩
    have := hq.2.1
    simp; omega
  · rw [if_neg hd]
    exact Safe.pure ⟨ht, by simp, hs⟩

theorem safe_suf {ts : List Tk} {s : σ} {b : Bool} {x : PExpr V S T × Nat} (ht : TailL L ts) (hn : ts.length < n + 1)
    (hs : ph (.stmt b) s) : Safe A E (PSx o x) ⟨ts, s⟩ fun _ q => Fine L ph (.stmt b) (ts.length + 1) q := by
  obtain ⟨t, ts, rfl⟩ := ht.cons
  rw [PSx_eq]
  refine Safe.cur ?_
  by_cases hb : t.kind = .openSquare
  · rw [if_pos hb]
    refine Safe.skip ht (nostick hb (by decide)) fun h1 _ => ?_
    obtain ⟨u, us, rfl⟩ := h1.cons
    refine Safe.cur ((ih.expr h1 (by simp at hn ⊢; omega) hs).bind ?_)
    rintro e ⟨qt, s1⟩ ⟨h2, h3, h4⟩
    obtain ⟨v, vs, rfl⟩ := h2.cons
    refine Safe.expect (hO.err _ _ h4) fun hv => Safe.skip h2 (nostick hv (by decide)) fun h5 _ => ?_
    refine (ih.suf h5 (by simp at hn h3 ⊢; omega) h4).imp fun _ q hq => ⟨hq.1, ?_, hq.2.2⟩
    have := hq.2.1
    simp at this h3 ⊢; omega
  rw [if_neg hb]
  by_cases ha : t.kind = .arrow
  · rw [if_pos ha]
    refine Safe.getExpect (hO.err _ _ hs) ht fun f us hf hfk => Safe.cur ?_
    subst hf
    have h1 := ht.tail (nostick ha (by decide))
    refine Safe.getExpect (hO.err _ _ hs) h1 fun lp us' hlp hlpk => ?_
    subst hlp
    have h2 := h1.tail (nostick hfk (by decide))
    refine (ih.call h2 (nostick hlpk (by decide)) (by simp at hn ⊢; omega) hs).bind ?_
    rintro e ⟨qt, s1⟩ ⟨h3, h4, h5⟩
    refine (ih.suf h3 (by simp at hn h4 ⊢; omega) h5).imp fun _ q hq => ⟨hq.1, ?_, hq.2.2⟩
    have := hq.2.1
    simp at this h4 ⊢; omega
  rw [if_neg ha]
  by_cases hd : t.kind = .dot
  · rw [if_pos hd]
    refine Safe.getExpect (hO.err _ _ hs) ht fun f us hf hfk => Safe.cur ?_
    subst hf
    have h1 := ht.tail (nostick hd (by decide))
    refine Safe.skip h1 (nostick hfk (by decide)) fun h2 _ => ?_
    refine (ih.suf h2 (by simp at hn; omega) hs).imp fun _ q hq => ⟨hq.1, ?_, hq.2.2⟩
    have := hq.2.1
    simp; omega
  · rw [if_neg hd]
    exact Safe.pure ⟨ht, by simp, hs⟩

omit hO ih in
theorem prec_nostick {t : Tok} (h : 0 ≤ tokenPrec t) : ¬ sticky t := by
  rintro (rfl | rfl) <;> exact absurd h (by decide)

theorem safe_bin {ts : List Tk} {s : σ} {b : Bool} {p : Int} {x : PExpr V S T} (ht : TailL L ts) (hn : ts.length < n + 1)
    (hs : ph (.stmt b) s) (hp : 0 ≤ p) : Safe A E (PB o p x) ⟨ts, s⟩ fun _ q => Fine L ph (.stmt b) (ts.length + 1) q := by
  obtain ⟨t, ts, rfl⟩ := ht.cons
  rw [PB_eq]
  refine Safe.cur ?_
  by_cases hlt : tokenPrec t.kind < p
  · rw [if_pos hlt]
    exact Safe.pure ⟨ht, by simp, hs⟩
  rw [if_neg hlt]
  refine Safe.skip ht (prec_nostick (by omega)) fun h1 _ => ?_
  refine (ih.fac h1 (by simp at hn; omega) hs).bind ?_
  rintro f ⟨qt, s1⟩ ⟨h2, h3, h4⟩
  obtain ⟨v, vs, rfl⟩ := h2.cons
  refine Safe.cur ?_
  dsimp only
  by_cases hb : tokenPrec t.kind < tokenPrec v.kind
  · rw [if_pos hb]
    refine (ih.bin h2 (by simp at hn h3 ⊢; omega) h4 (by omega)).bind ?_
    rintro r ⟨qt, s2⟩ ⟨h5, h6, h7⟩
    refine (ih.bin h5 (by simp at hn h3 h6 ⊢; omega) h7 hp).imp fun _ q hq => ⟨hq.1, ?_, hq.2.2⟩
    have := hq.2.1
    simp at this h3 h6 ⊢; omega
  · rw [if_neg hb, pure_bind]
    refine (ih.bin h2 (by simp at hn h3 ⊢; omega) h4 hp).imp fun _ q hq => ⟨hq.1, ?_, hq.2.2⟩
    have := hq.2.1
    simp at this h3 ⊢; omega

theorem safe_call {t : Tk} {ts : List Tk} {s : σ} {b : Bool} (ht : TailL L (t :: ts)) (hk : ¬ sticky t.kind)
    (hn : (t :: ts).length < n + 1) (hs : ph (.stmt b) s) :
    Safe A E (PC o) ⟨t :: ts, s⟩ fun _ q => Fine L ph (.stmt b) ts.length q := by
  rw [PC_eq]
  refine Safe.cur (Safe.skip ht hk fun h1 _ => ?_)
  refine (ih.args h1 (by simp at hn; omega) hs).bind ?_
  rintro f ⟨qt, s1⟩ ⟨⟨h2, h3, h4⟩, v, vs, hv, hvk⟩
  cases hv
  refine Safe.skip h2 (nostick hvk (by decide)) fun h5 _ => Safe.pure ⟨h5, ?_, h4⟩
  simp at h3 ⊢; omega

theorem safe_val {ts : List Tk} {s : σ} {b : Bool} (ht : TailL L ts) (hn : ts.length < n + 1)
    (hs : ph (.stmt b) s) : Safe A E (PV o) ⟨ts, s⟩ fun _ q => Fine L ph (.stmt b) ts.length q := by
  obtain ⟨t, ts, rfl⟩ := ht.cons
  rw [PV_eq]
  refine Safe.cur ?_
  cases hk : t.kind
  all_goals dsimp only
  all_goals try exact Safe.reject (hO.err _ _ hs)
  all_goals have h0 : ¬ sticky t.kind := by rw [hk]; decide
  case null | bool | char | int | float =>
    exact Safe.skip ht h0 fun h1 _ => Safe.pure ⟨h1, by simp, hs⟩
  case string =>
    exact Safe.lift (hO.str _ b (ht.2 t (by simp) hk)) hs fun x s' hs' => Safe.skip ht h0 fun h1 _ => Safe.pure ⟨h1, by simp, hs'⟩
  case ident =>
    refine Safe.skip ht h0 fun h1 _ => ?_
    obtain ⟨u, us, rfl⟩ := h1.cons
    refine Safe.cur ?_
    by_cases hp : u.kind = .openParen
    · rw [if_pos hp]
      refine (ih.call h1 (nostick hp (by decide)) (by simp at hn ⊢; omega) hs).bind ?_
      rintro f ⟨qt, s1⟩ ⟨h2, h3, h4⟩
      exact Safe.pure ⟨h2, by simp at h3 ⊢; omega, h4⟩
    · rw [if_neg hp]
      exact Safe.lift (hO.ref _ b) hs fun x s' hs' => Safe.pure ⟨h1, by simp, hs'⟩
  case minus | bang =>
    refine Safe.skip ht h0 fun h1 _ => ?_
    obtain ⟨u, us, rfl⟩ := h1.cons
    refine Safe.cur ((ih.fac h1 (by simp at hn ⊢; omega) hs).bind ?_)
    rintro f ⟨qt, s1⟩ ⟨h2, h3, h4⟩
    exact Safe.pure ⟨h2, by simp at h3 ⊢; omega, h4⟩
  case openParen =>
    refine Safe.skip ht h0 fun h1 _ => ?_
    refine (ih.expr h1 (by simp at hn ⊢; omega) hs).bind ?_
    rintro f ⟨qt, s1⟩ ⟨h2, h3, h4⟩
    obtain ⟨v, vs, rfl⟩ := h2.cons
    refine Safe.expect (hO.err _ _ h4) fun hv => Safe.skip h2 (nostick hv (by decide)) fun h5 _ => ?_
    obtain ⟨w, ws, rfl⟩ := h5.cons
    exact Safe.cur (Safe.pure ⟨h5, by simp at h3 ⊢; omega, h4⟩)
  case newTok =>
    refine Safe.skip ht h0 fun h1 _ => ?_
    obtain ⟨m, us, rfl⟩ := h1.cons
    refine Safe.cur (Safe.lift (hO.struct _ b) hs fun x s' hs' => ?_)
    refine Safe.getExpect (hO.err _ _ hs') h1 fun lc us' hlc hlck => ?_
    subst hlc
    have h2 : TailL L (lc :: us') := by
      rcases h1.split with h | ⟨-, c, d, h, hc, -⟩
      · exact h
      · cases h
        exact absurd hc (nostick hlck (by decide))
    refine Safe.skip h2 (nostick hlck (by decide)) fun h3 _ => ?_
    refine (ih.init h3 (by simp at hn ⊢; omega) hs').bind ?_
    rintro f ⟨qt, s1⟩ ⟨⟨h4, h5, h6⟩, v, vs, hv, hvk⟩
    cases hv
    refine Safe.skip h4 (nostick hvk (by decide)) fun h7 _ => Safe.pure ⟨h7, ?_, h6⟩
    simp at h5 ⊢; omega
  case castTok =>
    refine Safe.getExpect (hO.err _ _ hs) ht fun lp us hlp hlpk => ?_
    subst hlp
    have h1 := ht.tail h0
    refine Safe.skip h1 (nostick hlpk (by decide)) fun h2 _ => ?_
    refine (ih.expr h2 (by simp at hn ⊢; omega) hs).bind ?_
    rintro f ⟨qt, s1⟩ ⟨h3, h4, h5⟩
    obtain ⟨v, vs, rfl⟩ := h3.cons
    refine Safe.expect (hO.err _ _ h5) fun hv => Safe.skip h3 (nostick hv (by decide)) fun h6 _ => ?_
    refine (safe_type hO h6 h5).bind ?_
    rintro ty ⟨qt, s2⟩ ⟨h7, h8, h9⟩
    obtain ⟨w, ws, rfl⟩ := h7.cons
    refine Safe.expect (hO.err _ _ h9) fun hw => Safe.skip h7 (nostick hw (by decide)) fun h10 _ => ?_
    refine (ih.dot h10 (by simp at hn h4 h8 ⊢; omega) h9).imp fun _ q hq => ⟨hq.1, ?_, hq.2.2⟩
    have := hq.2.1
    simp at this h4 h8 ⊢; omega
  case ifTok =>
    refine Safe.skip ht h0 fun h1 _ => ?_
    refine (ih.expr h1 (by simp at hn ⊢; omega) hs).bind ?_
    rintro c ⟨qt, s1⟩ ⟨h2, h3, h4⟩
    refine (ih.expr h2 (by simp at hn h3 ⊢; omega) h4).bind ?_
    rintro a ⟨qt, s2⟩ ⟨h5, h6, h7⟩
    obtain ⟨v, vs, rfl⟩ := h5.cons
    refine Safe.expect (hO.err _ _ h7) fun hv => Safe.skip h5 (nostick hv (by decide)) fun h8 _ => ?_
    refine (ih.expr h8 (by simp at hn h3 h6 ⊢; omega) h7).bind ?_
    rintro c ⟨qt, s3⟩ ⟨h9, h10, h11⟩
    exact Safe.pure ⟨h9, by simp at h3 h6 h10 ⊢; omega, h11⟩

theorem safe_fac {ts : List Tk} {s : σ} {b : Bool} (ht : TailL L ts) (hn : ts.length < n + 1)
    (hs : ph (.stmt b) s) : Safe A E (PF o) ⟨ts, s⟩ fun _ q => Fine L ph (.stmt b) ts.length q := by
  rw [PF_eq]
  refine (safe_val hO ih ht hn hs).bind ?_
  rintro c ⟨qt, s1⟩ ⟨h2, h3, h4⟩
  refine (safe_suf hO ih h2 (Nat.lt_trans h3 hn) h4).imp fun _ q hq => ⟨hq.1, ?_, hq.2.2⟩
  have := hq.2.1
  simp at h3 this ⊢; omega

theorem safe_expr {ts : List Tk} {s : σ} {b : Bool} (ht : TailL L ts) (hn : ts.length < n + 1)
    (hs : ph (.stmt b) s) : Safe A E (PE o) ⟨ts, s⟩ fun _ q => Fine L ph (.stmt b) ts.length q := by
  rw [PE_eq]
  refine (safe_fac hO ih ht hn hs).bind ?_
  rintro c ⟨qt, s1⟩ ⟨h2, h3, h4⟩
  refine (safe_bin hO ih h2 (Nat.lt_trans h3 hn) h4 (Int.le_refl 0)).imp fun _ q hq => ⟨hq.1, ?_, hq.2.2⟩
  have := hq.2.1
  simp at h3 this ⊢; omega

theorem safe_args {ts : List Tk} {s : σ} {b : Bool} (ht : TailL L ts) (hn : ts.length < n + 1)
    (hs : ph (.stmt b) s) : Safe A E (PA o) ⟨ts, s⟩ fun _ q =>
      Fine L ph (.stmt b) (ts.length + 1) q ∧ ∃ t ts', q.toks = t :: ts' ∧ t.kind = .closeParen := by
  obtain ⟨t, ts, rfl⟩ := ht.cons
  rw [PA_eq]
  refine Safe.cur ?_
  by_cases hc : t.kind = .closeParen
  · rw [if_pos hc]
    exact Safe.pure ⟨⟨ht, by simp, hs⟩, t, ts, rfl, hc⟩
  rw [if_neg hc]
  refine (safe_expr hO ih ht hn hs).bind ?_
  rintro e ⟨qt, s1⟩ ⟨h2, h3, h4⟩
  obtain ⟨v, vs, rfl⟩ := h2.cons
  refine Safe.cur ?_
  by_cases hm : v.kind = .comma
  · rw [if_pos hm]
    refine Safe.skip h2 (nostick hm (by decide)) fun h5 _ => ?_
    refine (ih.args h5 (by simp at hn h3 ⊢; omega) h4).bind ?_
    rintro e ⟨qt, s2⟩ ⟨⟨h6, h7, h8⟩, h9⟩
    exact Safe.pure ⟨⟨h6, by simp at h3 h7 ⊢; omega, h8⟩, h9⟩
  rw [if_neg hm]
  by_cases hc' : v.kind = .closeParen
  · rw [if_pos hc']
    refine (ih.args h2 (by simp at hn h3 ⊢; omega) h4).bind ?_
    rintro e ⟨qt, s2⟩ ⟨⟨h6, h7, h8⟩, h9⟩
    exact Safe.pure ⟨⟨h6, by simp at h3 h7 ⊢; omega, h8⟩, h9⟩
  · rw [if_neg hc']
    exact Safe.reject (hO.err _ _ h4)

theorem safe_init {ts : List Tk} {s : σ} {b : Bool} (ht : TailL L ts) (hn : ts.length < n + 1)
    (hs : ph (.stmt b) s) : Safe A E (PI o) ⟨ts, s⟩ fun _ q =>
      Fine L ph (.stmt b) (ts.length + 1) q ∧ ∃ t ts', q.toks = t :: ts' ∧ t.kind = .closeCurly := by
  obtain ⟨t, ts, rfl⟩ := ht.cons
  rw [PI_eq]
  refine Safe.cur ?_
  by_cases hc : t.kind = .closeCurly
  · rw [if_pos hc]
    exact Safe.pure ⟨⟨ht, by simp, hs⟩, t, ts, rfl, hc⟩
  rw [if_neg hc]
  dsimp only
  have key : ∀ (ns : List Name) (ts' : List Tk), TailL L ts' → ts'.length ≤ (t :: ts).length →
      Safe A E (do
        let e ← PE o
        let t ← cur
        if t.kind ≠ .closeCurly ∧ t.kind ≠ .comma then reject
        else do
          if t.kind = .comma then next else pure ()
          let r ← PI o
          pure (ns ++ r.1, e :: r.2) : Act (PS σ) _) ⟨ts', s⟩ fun _ q =>
      Fine L ph (.stmt b) ((t :: ts).length + 1) q ∧ ∃ t ts', q.toks = t :: ts' ∧ t.kind = .closeCurly := by
    intro ns ts' ht' hl
    refine (safe_expr hO ih ht' (by omega) hs).bind ?_
    rintro e ⟨qt, s1⟩ ⟨h2, h3, h4⟩
    obtain ⟨v, vs, rfl⟩ := h2.cons
    refine Safe.cur ?_
    by_cases hm : v.kind = .comma
    · rw [if_neg (by rw [hm]; decide)]
      dsimp only
      rw [if_pos hm]
      refine Safe.skip h2 (nostick hm (by decide)) fun h5 _ => ?_
      refine (ih.init h5 (by simp at hn h3 hl ⊢; omega) h4).bind ?_
      rintro e ⟨qt, s2⟩ ⟨⟨h6, h7, h8⟩, h9⟩
      exact Safe.pure ⟨⟨h6, by simp at h3 h7 hl ⊢; omega, h8⟩, h9⟩
    by_cases hc' : v.kind = .closeCurly
    · rw [if_neg (by rw [hc']; decide)]
      dsimp only
      rw [if_neg hm]
      refine (ih.init h2 (by simp at hn h3 hl ⊢; omega) h4).bind ?_
      rintro e ⟨qt, s2⟩ ⟨⟨h6, h7, h8⟩, h9⟩
      exact Safe.pure ⟨⟨h6, by simp at h3 h7 hl ⊢; omega, h8⟩, h9⟩
    · rw [if_pos ⟨hc', hm⟩]
      exact Safe.reject (hO.err _ _ h4)
  by_cases hd : t.kind = .dot
  · rw [if_pos hd]
    refine Safe.getExpect (hO.err _ _ hs) ht fun f us hf hfk => Safe.cur ?_
    subst hf
    have h1 := ht.tail (nostick hd (by decide))
    refine Safe.getExpect (hO.err _ _ hs) h1 fun q us' hq hqk => ?_
    subst hq
    have h2 := h1.tail (nostick hfk (by decide))
    exact Safe.skip h2 (nostick hqk (by decide)) fun h3 _ => key _ _ h3 (by simp; omega)
  · rw [if_neg hd]
    exact key _ _ ht (Nat.le_refl _)

omit ih in
theorem safeE (n : Nat) : SafeE L A E ph o n := by
  induction n with
  | zero => constructor <;> (intros; omega)
  | succ n ih =>
    exact ⟨safe_expr hO ih, safe_fac hO ih, safe_val hO ih, safe_bin hO ih, safe_suf hO ih, safe_dot hO ih,
      safe_call hO ih, safe_args hO ih, safe_init hO ih⟩

end

end Tiny
