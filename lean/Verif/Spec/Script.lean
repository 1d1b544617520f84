import Verif.Model.Script
/-!
Specification of scripts: the meaning of python expressions and of statements executed in the order of the text, in one namespace that nested scopes see.
-/
namespace ABX.Script.Spec
variable {V : Type}

/-- what a name stands for in a namespace -/
def Sees (P : Python V) (ns : Ns V) (x : String) (v : V) : Prop := ns.lookup x = some v ∨ (ns.lookup x = none ∧ P.builtins x = some v)

/-- the value of an expression; the names of a nested scope are its own variable and those that its surroundings see -/
inductive Value (P : Python V) : Ns V → Expr V → V → Prop where
  | lit {ns v} : Value P ns (.lit v) v
  | name {ns x v} : Sees P ns x v → Value P ns (.name x) v
  | op {ns f a b va vb v} : Value P ns a va → Value P ns b vb → f va vb = .ok v → Value P ns (.op f a b) v
  | nested {ns x iter body v} {vs ws : List V} : Value P ns iter v → P.elems v = .ok vs → (hl : ws.length = vs.length) →
      (∀ i (h : i < vs.length), Value P ((x, vs[i]) :: ns) body (ws[i]'(hl ▸ h))) → Value P ns (.nested x iter body) (P.pack ws)

/-- statements executed in order -/
inductive Steps (P : Python V) : Ns V → List (Stmt V) → Ns V → Prop where
  | done {ns} : Steps P ns [] ns
  | imp {ns x v rest ns'} : Steps P ((x, v) :: ns) rest ns' → Steps P ns (.imp x (.ok v) :: rest) ns'
  | assign {ns x e v rest ns'} : Value P ns e v → Steps P ((x, v) :: ns) rest ns' → Steps P ns (.assign x e :: rest) ns'
  | expr {ns e v rest ns'} : Value P ns e v → Steps P ns rest ns' → Steps P ns (.expr e :: rest) ns'

/-- the value of a script that ends in an expression -/
def Result (P : Python V) (ns : Ns V) (body : List (Stmt V)) (v : V) : Prop :=
  ∃ pre e ns', body = pre ++ [.expr e] ∧ Steps P ns pre ns' ∧ Value P ns' e v

/-- `x` is written in an expression, as a name that is used or as the variable of a nested scope -/
inductive InExpr (x : String) : Expr V → Prop where
  | name : InExpr x (.name x)
  | left {f a b} : InExpr x a → InExpr x (.op f a b)
  | right {f a b} : InExpr x b → InExpr x (.op f a b)
  | iter {y i b} : InExpr x i → InExpr x (.nested y i b)
  | var {i b} : InExpr x (.nested x i b)
  | body {y i b} : InExpr x b → InExpr x (.nested y i b)

/-- `x` is written in a statement other than an import -/
inductive InStmt (x : String) : Stmt V → Prop where
  | target {e} : InStmt x (.assign x e)
  | value {y e} : InExpr x e → InStmt x (.assign y e)
  | expr {e} : InExpr x e → InStmt x (.expr e)

/-- `x` is a name that an expression takes from its surroundings -/
inductive Free (x : String) : Expr V → Prop where
  | name : Free x (.name x)
  | left {f a b} : Free x a → Free x (.op f a b)
  | right {f a b} : Free x b → Free x (.op f a b)
  | iter {y i b} : Free x i → Free x (.nested y i b)
  | body {y i b} : x ≠ y → Free x b → Free x (.nested y i b)

/-- `x` is a name that a nested scope of an expression takes from the surroundings of the expression -/
inductive Hidden (x : String) : Expr V → Prop where
  | left {f a b} : Hidden x a → Hidden x (.op f a b)
  | right {f a b} : Hidden x b → Hidden x (.op f a b)
  | iter {y i b} : Hidden x i → Hidden x (.nested y i b)
  | body {y i b} : x ≠ y → Free x b → Hidden x (.nested y i b)

/-- `x` is needed to compute an expression -/
inductive Needs (x : String) : Expr V → Prop where
  | name : Needs x (.name x)
  | left {f a b} : Needs x a → Needs x (.op f a b)
  | right {f a b} : Needs x b → Needs x (.op f a b)
  | iter {y i b} : Needs x i → Needs x (.nested y i b)

/-- the names that a statement binds -/
inductive Binds (x : String) : Stmt V → Prop where
  | imp {v} : Binds x (.imp x v)
  | assign {e} : Binds x (.assign x e)

/-- the expression of a statement -/
inductive Has (e : Expr V) : Stmt V → Prop where
  | assign {x} : Has e (.assign x e)
  | expr : Has e (.expr e)

/-- a name is bound in a namespace -/
def Bound (ns : Ns V) (x : String) : Prop := ∃ v, (x, v) ∈ ns

/-- iterating over a list gives its elements -/
def Lawful (P : Python V) : Prop := ∀ l, P.elems (P.pack l) = .ok l

end ABX.Script.Spec
