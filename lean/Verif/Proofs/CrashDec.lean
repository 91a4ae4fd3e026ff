import Verif.Spec.Clean

/-!
# Deciding whether a tree is `Crashing`

To check concrete programs.
-/

namespace Tiny
open Spec

mutual
/-- Decides `Occurs`. -/
def occursB (n : Name) : SExpr → Bool
  | .id m _ => m == n
  | .call _ as => occursInB n as
  | .paren e => occursB n e
  | .bin _ l r => occursB n l || occursB n r
  | .un _ e => occursB n e
  | .dot l _ => occursB n l
  | .index a i => occursB n a || occursB n i
  | .ctor _ _ as => occursInB n as
  | .cast e _ => occursB n e
  | .ite c a b => occursB n c || (occursB n a || occursB n b)
  | _ => false
/-- Decides `OccursIn`. -/
def occursInB (n : Name) : List SExpr → Bool
  | [] => false
  | e :: es => occursB n e || occursInB n es
end

mutual
theorem occurs_iff (n : Name) : ∀ e : SExpr, Occurs n e ↔ occursB n e = true
  | .id m _ => by simp [Occurs, occursB]
  | .call _ as => by simp [Occurs, occursB, occursIn_iff n as]
  | .paren e => by simp [Occurs, occursB, occurs_iff n e]
  | .bin _ l r => by simp [Occurs, occursB, occurs_iff n l, occurs_iff n r]
  | .un _ e => by simp [Occurs, occursB, occurs_iff n e]
  | .dot l _ => by simp [Occurs, occursB, occurs_iff n l]
  | .index a i => by simp [Occurs, occursB, occurs_iff n a, occurs_iff n i]
  | .ctor _ _ as => by simp [Occurs, occursB, occursIn_iff n as]
  | .cast e _ => by simp [Occurs, occursB, occurs_iff n e]
  | .ite c a b => by simp [Occurs, occursB, occurs_iff n c, occurs_iff n a, occurs_iff n b]
  | .null => by simp [Occurs, occursB]
  | .bool _ => by simp [Occurs, occursB]
  | .char _ => by simp [Occurs, occursB]
  | .int _ => by simp [Occurs, occursB]
  | .float _ => by simp [Occurs, occursB]
  | .str _ => by simp [Occurs, occursB]
theorem occursIn_iff (n : Name) : ∀ es : List SExpr, OccursIn n es ↔ occursInB n es = true
  | [] => by simp [OccursIn, occursInB]
  | e :: es => by simp [OccursIn, occursInB, occurs_iff n e, occursIn_iff n es]
end

/-- Decides `SelfDecl`. -/
def selfDeclB : Tok → SExpr → SExpr → Bool
  | .declare, .id n _, e => occursB n e
  | _, _, _ => false

theorem selfDecl_iff (op : Tok) (l e : SExpr) : SelfDecl op l e ↔ selfDeclB op l e = true := by
  unfold SelfDecl selfDeclB
  split
  · exact occurs_iff _ _
  · simp

mutual
/-- Decides `SelfInit`. -/
def selfInitB : SStmt → Bool
  | .node _ s => selfInitB s
  | .block ss => selfInitsB ss
  | .assign op _ l e => selfDeclB op l e
  | .proc _ _ _ _ b => selfInitB b
  | .ifThen _ b => selfInitB b
  | .ifElse _ b a => selfInitB b || selfInitB a
  | .while _ b => selfInitB b
  | .for i _ s b => selfInitB i || (selfInitB s || selfInitB b)
  | _ => false
/-- Decides `SelfInits`. -/
def selfInitsB : List SStmt → Bool
  | [] => false
  | s :: ss => selfInitB s || selfInitsB ss
end

mutual
theorem selfInit_iff : ∀ s : SStmt, SelfInit s ↔ selfInitB s = true
  | .node _ s => by simp [SelfInit, selfInitB, selfInit_iff s]
  | .block ss => by simp [SelfInit, selfInitB, selfInits_iff ss]
  | .assign op _ l e => by simp [SelfInit, selfInitB, selfDecl_iff]
  | .proc _ _ _ _ b => by simp [SelfInit, selfInitB, selfInit_iff b]
  | .ifThen _ b => by simp [SelfInit, selfInitB, selfInit_iff b]
  | .ifElse _ b a => by simp [SelfInit, selfInitB, selfInit_iff b, selfInit_iff a]
  | .while _ b => by simp [SelfInit, selfInitB, selfInit_iff b]
  | .for i _ s b => by simp [SelfInit, selfInitB, selfInit_iff i, selfInit_iff s, selfInit_iff b]
  | .call .. => by simp [SelfInit, selfInitB]
  | .ret .. => by simp [SelfInit, selfInitB]
  | .brk => by simp [SelfInit, selfInitB]
  | .cont => by simp [SelfInit, selfInitB]
  | .use .. => by simp [SelfInit, selfInitB]
  | .struct .. => by simp [SelfInit, selfInitB]
theorem selfInits_iff : ∀ ss : List SStmt, SelfInits ss ↔ selfInitsB ss = true
  | [] => by simp [SelfInits, selfInitsB]
  | s :: ss => by simp [SelfInits, selfInitsB, selfInit_iff s, selfInits_iff ss]
end

/-- Is it the literal of the smallest `int`? -/
def isMin : SExpr → Bool
  | .int i => i == BitVec.intMin 32
  | _ => false

theorem isMin_iff (e : SExpr) : e = .int (BitVec.intMin 32) ↔ isMin e = true := by
  cases e <;> simp [isMin]

mutual
/-- Decides `NegMin`. -/
def negMinB : SExpr → Bool
  | .un op e => (op == .minus && isMin e) || negMinB e
  | .call _ as => negMinsB as
  | .paren e => negMinB e
  | .bin _ l r => negMinB l || negMinB r
  | .dot l _ => negMinB l
  | .index a i => negMinB a || negMinB i
  | .ctor _ _ as => negMinsB as
  | .cast e _ => negMinB e
  | .ite c a b => negMinB c || (negMinB a || negMinB b)
  | _ => false
/-- Decides `NegMins`. -/
def negMinsB : List SExpr → Bool
  | [] => false
  | e :: es => negMinB e || negMinsB es
end

mutual
theorem negMin_iff : ∀ e : SExpr, NegMin e ↔ negMinB e = true
  | .un _ e => by simp [NegMin, negMinB, negMin_iff e, isMin_iff]
  | .call _ as => by simp [NegMin, negMinB, negMins_iff as]
  | .paren e => by simp [NegMin, negMinB, negMin_iff e]
  | .bin _ l r => by simp [NegMin, negMinB, negMin_iff l, negMin_iff r]
  | .dot l _ => by simp [NegMin, negMinB, negMin_iff l]
  | .index a i => by simp [NegMin, negMinB, negMin_iff a, negMin_iff i]
  | .ctor _ _ as => by simp [NegMin, negMinB, negMins_iff as]
  | .cast e _ => by simp [NegMin, negMinB, negMin_iff e]
  | .ite c a b => by simp [NegMin, negMinB, negMin_iff c, negMin_iff a, negMin_iff b]
  | .id .. => by simp [NegMin, negMinB]
  | .null => by simp [NegMin, negMinB]
  | .bool _ => by simp [NegMin, negMinB]
  | .char _ => by simp [NegMin, negMinB]
  | .int _ => by simp [NegMin, negMinB]
  | .float _ => by simp [NegMin, negMinB]
  | .str _ => by simp [NegMin, negMinB]
theorem negMins_iff : ∀ es : List SExpr, NegMins es ↔ negMinsB es = true
  | [] => by simp [NegMins, negMinsB]
  | e :: es => by simp [NegMins, negMinsB, negMin_iff e, negMins_iff es]
end

mutual
/-- Decides `NegatesMin`. -/
def negatesMinB : SStmt → Bool
  | .node _ s => negatesMinB s
  | .call _ as => negMinsB as
  | .block ss => negateMinB ss
  | .assign _ _ l e => negMinB l || negMinB e
  | .proc _ _ _ _ b => negatesMinB b
  | .ifThen c b => negMinB c || negatesMinB b
  | .ifElse c b a => negMinB c || (negatesMinB b || negatesMinB a)
  | .while c b => negMinB c || negatesMinB b
  | .for i c s b => negatesMinB i || (negMinB c || (negatesMinB s || negatesMinB b))
  | .ret (some e) => negMinB e
  | _ => false
/-- Decides `NegateMin`. -/
def negateMinB : List SStmt → Bool
  | [] => false
  | s :: ss => negatesMinB s || negateMinB ss
end

mutual
theorem negatesMin_iff : ∀ s : SStmt, NegatesMin s ↔ negatesMinB s = true
  | .node _ s => by simp [NegatesMin, negatesMinB, negatesMin_iff s]
  | .call _ as => by simp [NegatesMin, negatesMinB, negMins_iff as]
  | .block ss => by simp [NegatesMin, negatesMinB, negateMin_iff ss]
  | .assign _ _ l e => by simp [NegatesMin, negatesMinB, negMin_iff l, negMin_iff e]
  | .proc _ _ _ _ b => by simp [NegatesMin, negatesMinB, negatesMin_iff b]
  | .ifThen c b => by simp [NegatesMin, negatesMinB, negMin_iff c, negatesMin_iff b]
  | .ifElse c b a => by simp [NegatesMin, negatesMinB, negMin_iff c, negatesMin_iff b, negatesMin_iff a]
  | .while c b => by simp [NegatesMin, negatesMinB, negMin_iff c, negatesMin_iff b]
  | .for i c s b => by simp [NegatesMin, negatesMinB, negatesMin_iff i, negMin_iff c, negatesMin_iff s, negatesMin_iff b]
  | .ret (some e) => by simp [NegatesMin, negatesMinB, negMin_iff e]
  | .ret none => by simp [NegatesMin, negatesMinB]
  | .brk => by simp [NegatesMin, negatesMinB]
  | .cont => by simp [NegatesMin, negatesMinB]
  | .use .. => by simp [NegatesMin, negatesMinB]
  | .struct .. => by simp [NegatesMin, negatesMinB]
theorem negateMin_iff : ∀ ss : List SStmt, NegateMin ss ↔ negateMinB ss = true
  | [] => by simp [NegateMin, negateMinB]
  | s :: ss => by simp [NegateMin, negateMinB, negatesMin_iff s, negateMin_iff ss]
end

/-- Is it a `use` with more than 128 arguments? -/
def longUse : SStmt → Bool
  | .node _ (.use _ args _) => decide (128 < args.length)
  | _ => false

theorem longUse_iff (ss : List SStmt) : LongUse ss ↔ ss.any longUse = true := by
  rw [List.any_eq_true]
  constructor
  · rintro ⟨l, m, args, a, h, hl⟩
    exact ⟨_, h, by simp [longUse, hl]⟩
  · rintro ⟨s, h, hl⟩
    unfold longUse at hl
    split at hl
    · exact ⟨_, _, _, _, h, by simpa using hl⟩
    · cases hl

/-- Decides `Crashing`. -/
def crashingB (ss : List SStmt) : Bool := selfInitsB ss || (negateMinB ss || ss.any longUse)

theorem crashing_iff (ss : List SStmt) : Crashing ss ↔ crashingB ss = true := by
  simp only [Crashing, crashingB, Bool.or_eq_true, selfInits_iff, negateMin_iff, longUse_iff]

mutual
/-- Decides `MakesE`. -/
def makesEB {V S T : Type} (n : Name) : PExpr V S T → Bool
  | .ctor m _ as => m == n || makesEsB n as
  | .call _ as => makesEsB n as
  | .paren e => makesEB n e
  | .bin _ l r => makesEB n l || makesEB n r
  | .un _ e => makesEB n e
  | .dot l _ => makesEB n l
  | .index a i => makesEB n a || makesEB n i
  | .cast e _ => makesEB n e
  | .ite c a b => makesEB n c || (makesEB n a || makesEB n b)
  | _ => false
/-- Decides `MakesEs`. -/
def makesEsB {V S T : Type} (n : Name) : List (PExpr V S T) → Bool
  | [] => false
  | e :: es => makesEB n e || makesEsB n es
end

mutual
/-- Decides `MakesS`. -/
def makesSB {V S T F : Type} (n : Name) : PStmt V S T F → Bool
  | .node _ s => makesSB n s
  | .call _ as => makesEsB n as
  | .block ss => makesB n ss
  | .assign _ _ l e => makesEB n l || makesEB n e
  | .proc _ _ _ _ b => makesSB n b
  | .ifThen c b => makesEB n c || makesSB n b
  | .ifElse c b a => makesEB n c || (makesSB n b || makesSB n a)
  | .while c b => makesEB n c || makesSB n b
  | .for i c s b => makesSB n i || (makesEB n c || (makesSB n s || makesSB n b))
  | .ret (some e) => makesEB n e
  | _ => false
/-- Decides `Makes`. -/
def makesB {V S T F : Type} (n : Name) : List (PStmt V S T F) → Bool
  | [] => false
  | s :: ss => makesSB n s || makesB n ss
end

mutual
theorem makesE_iff {V S T : Type} (n : Name) : ∀ e : PExpr V S T, MakesE n e ↔ makesEB n e = true
  | .ctor m _ as => by simp [MakesE, makesEB, makesEs_iff n as]
  | .call _ as => by simp [MakesE, makesEB, makesEs_iff n as]
  | .paren e => by simp [MakesE, makesEB, makesE_iff n e]
  | .bin _ l r => by simp [MakesE, makesEB, makesE_iff n l, makesE_iff n r]
  | .un _ e => by simp [MakesE, makesEB, makesE_iff n e]
  | .dot l _ => by simp [MakesE, makesEB, makesE_iff n l]
  | .index a i => by simp [MakesE, makesEB, makesE_iff n a, makesE_iff n i]
  | .cast e _ => by simp [MakesE, makesEB, makesE_iff n e]
  | .ite c a b => by simp [MakesE, makesEB, makesE_iff n c, makesE_iff n a, makesE_iff n b]
  | .id _ _ => by simp [MakesE, makesEB]
  | .null => by simp [MakesE, makesEB]
  | .bool _ => by simp [MakesE, makesEB]
  | .char _ => by simp [MakesE, makesEB]
  | .int _ => by simp [MakesE, makesEB]
  | .float _ => by simp [MakesE, makesEB]
  | .str _ => by simp [MakesE, makesEB]
theorem makesEs_iff {V S T : Type} (n : Name) : ∀ es : List (PExpr V S T), MakesEs n es ↔ makesEsB n es = true
  | [] => by simp [MakesEs, makesEsB]
  | e :: es => by simp [MakesEs, makesEsB, makesE_iff n e, makesEs_iff n es]
end

mutual
theorem makesS_iff {V S T F : Type} (n : Name) : ∀ s : PStmt V S T F, MakesS n s ↔ makesSB n s = true
  | .node _ s => by simp [MakesS, makesSB, makesS_iff n s]
  | .call _ as => by simp [MakesS, makesSB, makesEs_iff n as]
  | .block ss => by simp [MakesS, makesSB, makes_iff n ss]
  | .assign _ _ l e => by simp [MakesS, makesSB, makesE_iff n l, makesE_iff n e]
  | .proc _ _ _ _ b => by simp [MakesS, makesSB, makesS_iff n b]
  | .ifThen c b => by simp [MakesS, makesSB, makesE_iff n c, makesS_iff n b]
  | .ifElse c b a => by simp [MakesS, makesSB, makesE_iff n c, makesS_iff n b, makesS_iff n a]
  | .while c b => by simp [MakesS, makesSB, makesE_iff n c, makesS_iff n b]
  | .for i c s b => by simp [MakesS, makesSB, makesS_iff n i, makesE_iff n c, makesS_iff n s, makesS_iff n b]
  | .ret (some e) => by simp [MakesS, makesSB, makesE_iff n e]
  | .ret none => by simp [MakesS, makesSB]
  | .brk => by simp [MakesS, makesSB]
  | .cont => by simp [MakesS, makesSB]
  | .struct .. => by simp [MakesS, makesSB]
  | .use .. => by simp [MakesS, makesSB]
theorem makes_iff {V S T F : Type} (n : Name) : ∀ ss : List (PStmt V S T F), Makes n ss ↔ makesB n ss = true
  | [] => by simp [Makes, makesB]
  | s :: ss => by simp [Makes, makesB, makesS_iff n s, makes_iff n ss]
end

end Tiny
