import Verif.Spec.Codegen
import Verif.Model.Generate

/-!
The lexer and the typed tree of a grammar as they are written.
-/

namespace Fall.Spec

/-! ## Names -/

/-- `b` is the capital letter of `a` if `a` is a small letter of ASCII, else `a` itself. -/
def Capital (a b : UInt8) : Prop :=
  (97 ≤ a.toNat ∧ a.toNat ≤ 122 ∧ a.toNat = b.toNat + 32) ∨ (¬ (97 ≤ a.toNat ∧ a.toNat ≤ 122) ∧ b = a)

/-- `t` is `s` in capital letters. -/
def Screaming (s t : List UInt8) : Prop := Pointwise Capital s t

/-- The words of a name, between underscores. -/
inductive Words : List UInt8 → List (List UInt8) → Prop where
  | one : 95 ∉ w → Words w [w]
  | more : 95 ∉ w → Words s ws → Words (w ++ 95 :: s) (w :: ws)

/-- `t` is the word with a capital letter. The word is not empty and begins with a character of ASCII. -/
def Capitalized (w t : List UInt8) : Prop := ∃ a b rest, w = a :: rest ∧ a.toNat < 128 ∧ Capital a b ∧ t = b :: rest

/-- `t` is the name in camel case. -/
def CamelCase (s t : List UInt8) : Prop := ∃ ws ts, Words s ws ∧ Pointwise Capitalized ws ts ∧ t = ts.flatten

/-- All words of the name are not empty and begin with a character of ASCII. -/
def Nameable (s : List UInt8) : Prop := ∀ ws, Words s ws → ∀ w ∈ ws, ∃ a rest, w = a :: rest ∧ a.toNat < 128

/-! ## The lexer -/

/-- The regular expression of a token: a raw string as it is, or a string that is escaped. -/
def TokenPattern (f : File UInt8) (escape : List UInt8 → List UInt8) (t : NodeId) (re : List UInt8) : Prop :=
  ∃ lit body, Labelled f t 147 lit ∧ Quoted lit body ∧
    ((∃ q, lit = 114 :: q) ∧ re = body ∨ (∀ q, lit ≠ 114 :: q) ∧ re = escape body)

/-- The function of a token: its second string. -/
def TokenFunction (f : File UInt8) (t : NodeId) : Option (List UInt8) → Prop
  | some s => ∃ ss c lit, ChildrenWith f t (OfType f 147) ss ∧ ss[1]? = some c ∧ f.textOf c = some lit ∧ Quoted lit s
  | none => ∃ ss, ChildrenWith f t (OfType f 147) ss ∧ ss.length ≤ 1

/-- The token is found by the parser, not by the lexer. -/
def Contextual (f : File UInt8) (t : NodeId) : Prop := ∃ a, Attribute f t "contextual" a

/-- The rule of the lexer for a token. -/
def LexRuleSays (f : File UInt8) (escape : List UInt8 → List UInt8) (t : NodeId) (r : GenLexRule) : Prop :=
  Ident f t r.ty ∧ TokenPattern f escape t r.re ∧ TokenFunction f t r.ext

/-- The rules of the lexer: one for each token that is not contextual, in their order. -/
def LexerSays (f : File UInt8) (escape : List UInt8 → List UInt8) (rs : List GenLexRule) : Prop :=
  ∃ d ts, FirstChild f 0 (OfType f 141) d ∧ ChildrenWith f d (fun t => OfType f 142 t ∧ ¬ Contextual f t) ts ∧
    Pointwise (LexRuleSays f escape) ts rs

/-! ## The verbatim part -/

/-- White space of ASCII. -/
def SpaceByte (b : UInt8) : Prop := b ∈ [9, 10, 11, 12, 13, 32]

/-- `t` is `s` without white space at the ends. -/
def Trimmed (s t : List UInt8) : Prop :=
  ∃ a b, s = a ++ t ++ b ∧ (∀ x ∈ a, SpaceByte x) ∧ (∀ x ∈ b, SpaceByte x) ∧ (∀ x, t.head? = some x → ¬ SpaceByte x) ∧
    ∀ x, t.getLast? = some x → ¬ SpaceByte x

/-- The verbatim part of a grammar. -/
def VerbatimSays (f : File UInt8) : Option (List UInt8) → Prop
  | none => ∀ v, ¬ FirstChild f 0 (OfType f 148) v
  | some t => ∃ v lit s, FirstChild f 0 (OfType f 148) v ∧ Labelled f v 129 lit ∧ Quoted lit s ∧ Trimmed s t

/-! ## The typed tree -/

/-- The body of a method that selects this. -/
inductive BodySays (f : File UInt8) : MethodKind → GenBody → Prop where
  | text : Ident f t s → Screaming s c → BodySays f (.text t .single) (.text false c)
  | optionalText : Ident f t s → Screaming s c → BodySays f (.text t .optional) (.text true c)
  | token : Ident f t s → Screaming s c → BodySays f (.token t .single) (.token false c)
  | optionalToken : Ident f t s → Screaming s c → BodySays f (.token t .optional) (.token true c)
  | node : Ident f n s → CamelCase s c → BodySays f (.astNode n ar) (.nodes ar c)
  | class : Ident f n s → CamelCase s c → BodySays f (.astClass n ar) (.nodes ar c)

/-- The name and the body of a method. -/
def MethodSays (f : File UInt8) (m : NodeId) (g : GenMethod) : Prop :=
  Ident f m g.name ∧ ∃ k, MethodMeans f m (some k) ∧ BodySays f k g.body

/-- The methods of an item. -/
def MethodsSay (f : File UInt8) (item : NodeId) (gs : List GenMethod) : Prop :=
  ∃ ms, ChildrenWith f item (OfType f 153) ms ∧ Pointwise (MethodSays f) ms gs

/-- The name of an item in camel case. -/
def CamelName (f : File UInt8) (n : NodeId) (c : List UInt8) : Prop := ∃ s, Ident f n s ∧ CamelCase s c

/-- The type for a node. -/
def NodeSays (f : File UInt8) (n : NodeId) (g : GenNode) : Prop :=
  CamelName f n g.structName ∧ (∃ s, Ident f n s ∧ Screaming s g.typeName) ∧ MethodsSay f n g.methods

/-- The names of the variants of a class: all names but the first one. -/
def VariantNames (f : File UInt8) (c : NodeId) (names : List (List UInt8)) : Prop :=
  ∃ i is, ChildrenWith f c (OfType f 130) (i :: is) ∧ Pointwise (fun i s => f.textOf i = some s) is names

/-- The type for a class. -/
def ClassSays (f : File UInt8) (c : NodeId) (g : GenClass) : Prop :=
  CamelName f c g.enumName ∧ ∃ names, VariantNames f c names ∧
    Pointwise (fun s v => Screaming s v.1 ∧ CamelCase s v.2) names g.variants

/-- The node definition names the trait. -/
def HasTrait (f : File UInt8) (n t : NodeId) : Prop :=
  ∃ ids i s, NamesAfterColon f n ids ∧ i ∈ ids ∧ f.textOf i = some s ∧ TraitNamed f s t

/-- The trait, which is implemented for the nodes that name it. -/
def TraitSays (f : File UInt8) (ast t : NodeId) (g : GenTrait) : Prop :=
  CamelName f t g.traitName ∧ MethodsSay f t g.methods ∧
    ∃ ns, ChildrenWith f ast (fun n => OfType f 150 n ∧ HasTrait f n t) ns ∧ Pointwise (CamelName f) ns g.implFor

/-- The types of the `ast` block. -/
def AstSays (f : File UInt8) : Option GenAst → Prop
  | none => ∀ ast, ¬ FirstChild f 0 (OfType f 149) ast
  | some g => ∃ ast ns cs ts, FirstChild f 0 (OfType f 149) ast ∧
      ChildrenWith f ast (OfType f 150) ns ∧ Pointwise (NodeSays f) ns g.nodes ∧
      ChildrenWith f ast (OfType f 151) cs ∧ Pointwise (ClassSays f) cs g.classes ∧
      ChildrenWith f ast (OfType f 152) ts ∧ Pointwise (TraitSays f ast) ts g.traits

/-- What is generated besides the parser. -/
structure RestSays (f : File UInt8) (escape : List UInt8 → List UInt8) (g : GenRest) : Prop where
  lexer : LexerSays f escape g.lexRules
  verbatim : VerbatimSays f g.verbatim
  binder : g.binder = true ↔ ∃ t, g.verbatim = some t ∧ ascii "whitespace_binder" <:+: t
  ast : AstSays f g.ast

/-! ## When something can be generated -/

/-- An item of the `ast` block. -/
def InAst (f : File UInt8) (tys : List NodeType) (n : NodeId) : Prop :=
  ∃ ast ty, FirstChild f 0 (OfType f 149) ast ∧ Child f ast n ∧ ty ∈ tys ∧ OfType f ty n

/-- There is a tokenizer; the strings of its tokens are complete; the string of the verbatim part is complete; the
names of the `ast` block have a camel case; its methods have names and select something, but not many tokens. -/
structure Describable (f : File UInt8) : Prop where
  tokenizer : ∃ d, FirstChild f 0 (OfType f 141) d
  tokens : ∀ d t, FirstChild f 0 (OfType f 141) d → Child f d t → OfType f 142 t → ¬ Contextual f t →
    (∃ lit body, Labelled f t 147 lit ∧ Quoted lit body) ∧
    ∀ ss c lit, ChildrenWith f t (OfType f 147) ss → ss[1]? = some c → f.textOf c = some lit → ∃ body, Quoted lit body
  verbatim : ∀ v, FirstChild f 0 (OfType f 148) v → ∃ lit body, Labelled f v 129 lit ∧ Quoted lit body
  names : ∀ n, InAst f [150, 151, 152] n → ∃ s, Ident f n s ∧ Nameable s
  variants : ∀ c i is v s, InAst f [151] c → ChildrenWith f c (OfType f 130) (i :: is) → v ∈ is → f.textOf v = some s →
    Nameable s
  methods : ∀ n m, InAst f [150, 152] n → Child f n m → OfType f 153 m →
    (∃ s, Ident f m s) ∧ ∃ k, MethodMeans f m (some k) ∧ ∀ t, k ≠ .token t .many ∧ k ≠ .text t .many

/-! ## The meaning of the typed tree -/

/-- A small letter of ASCII. -/
def SmallLetter (b : UInt8) : Prop := 97 ≤ b.toNat ∧ b.toNat ≤ 122

/-- A digit. -/
def Digit (b : UInt8) : Prop := 48 ≤ b.toNat ∧ b.toNat ≤ 57

/-- The usual names: words of small letters and digits that begin with a letter, with underscores between them. -/
def PlainName (s : List UInt8) : Prop :=
  ∃ ws, Words s ws ∧ ∀ w ∈ ws, ∃ a rest, w = a :: rest ∧ SmallLetter a ∧ ∀ b ∈ rest, SmallLetter b ∨ Digit b

/-- The names of types, items and variants are usual ones. -/
structure PlainNames (f : File UInt8) : Prop where
  types : ∀ ss s, TypeNames f ss → s ∈ ss → PlainName s
  items : ∀ i s, InAst f [150, 151, 152] i → Ident f i s → PlainName s
  variants : ∀ c vs v, InAst f [151] c → VariantNames f c vs → v ∈ vs → PlainName v

/-- Nodes of this type are nodes of the node or the class `s`. -/
inductive Denotes (f : File UInt8) : List UInt8 → NodeType → Prop where
  | node : InAst f [150] n → Ident f n s → TypeNumber f s k → Denotes f s (99 + k)
  | variant : InAst f [151] c → Ident f c s → VariantNames f c vs → v ∈ vs → Denotes f v ty → Denotes f s ty

/-- The type of a token. -/
def TokenType (f : File UInt8) (t : NodeId) (ty : NodeType) : Prop := ∃ s k, Ident f t s ∧ TypeNumber f s k ∧ ty = 99 + k

/-- The children of `n` of the node or class `i` of the grammar. -/
def Selects (f t : File UInt8) (n i : NodeId) (xs : List NodeId) : Prop :=
  ∃ s, Ident f i s ∧ ChildrenWith t n (fun x => ∃ ty, OfType t ty x ∧ Denotes f s ty) xs

/-- What a method of the grammar gives at the node `n` of the tree `t`. `none` is a panic. -/
inductive Accesses (f t : File UInt8) (n : NodeId) : MethodKind → Option (MethodValue UInt8) → Prop where
  | text : TokenType f tok ty → FirstChild t n (OfType t ty) x → t.textOf x = some s →
      Accesses f t n (.text tok ar) (some (.text (some s)))
  | noText : TokenType f tok ty → (∀ x, ¬ FirstChild t n (OfType t ty) x) →
      Accesses f t n (.text tok .optional) (some (.text none))
  | textPanic : TokenType f tok ty → (∀ x, ¬ FirstChild t n (OfType t ty) x) → Accesses f t n (.text tok .single) none
  | token : TokenType f tok ty → FirstChild t n (OfType t ty) x →
      Accesses f t n (.token tok ar) (some (.node (some x)))
  | noToken : TokenType f tok ty → (∀ x, ¬ FirstChild t n (OfType t ty) x) →
      Accesses f t n (.token tok .optional) (some (.node none))
  | tokenPanic : TokenType f tok ty → (∀ x, ¬ FirstChild t n (OfType t ty) x) → Accesses f t n (.token tok .single) none
  | nodes : k ∈ [MethodKind.astNode i .many, .astClass i .many] → Selects f t n i xs →
      Accesses f t n k (some (.nodes xs))
  | optional : k ∈ [MethodKind.astNode i .optional, .astClass i .optional] → Selects f t n i xs →
      Accesses f t n k (some (.node xs.head?))
  | single : k ∈ [MethodKind.astNode i .single, .astClass i .single] → Selects f t n i (x :: xs) →
      Accesses f t n k (some (.node (some x)))
  | singlePanic : k ∈ [MethodKind.astNode i .single, .astClass i .single] → Selects f t n i [] → Accesses f t n k none

/-- The first token of this name is skipped by the parser. -/
def SkippedType (f : File UInt8) (s : List UInt8) : Prop :=
  ∃ ts t a, Tokens f ts ∧ First ts (fun t => Ident f t s) t ∧ Attribute f t "skip" a

/-- The class `a` has the variant `b`. -/
def HasVariant (f : File UInt8) (a b : List UInt8) : Prop :=
  ∃ c vs, InAst f [151] c ∧ Ident f c a ∧ VariantNames f c vs ∧ b ∈ vs

/-- Names are defined, and defined once. -/
structure WellNamed (f : File UInt8) : Prop where
  types : ∀ ss, TypeNames f ss → (ascii "error" :: ss).Nodup
  items : ∀ ast ns cs ts names, FirstChild f 0 (OfType f 149) ast → ChildrenWith f ast (OfType f 150) ns →
    ChildrenWith f ast (OfType f 151) cs → ChildrenWith f ast (OfType f 152) ts →
    Pointwise (Ident f) (ns ++ cs ++ ts) names → (ascii "ast_node" :: names).Nodup
  nodes : ∀ n s, InAst f [150] n → Ident f n s → ∃ k, TypeNumber f s k
  variants : ∀ c vs, InAst f [151] c → VariantNames f c vs → vs.Nodup ∧ ∀ v ∈ vs, ∃ i, InAst f [150, 151] i ∧ Ident f i v
  finite : ∀ a, ¬ Relation.TransGen (HasVariant f) a a
  methods : ∀ i ms names, InAst f [150, 152] i → ChildrenWith f i (OfType f 153) ms → Pointwise (Ident f) ms names →
    names.Nodup

end Fall.Spec
