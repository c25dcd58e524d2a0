import Verif.Model.FallEditor
import Verif.Model.Languages

/-!
Model of `fall/tree/src/util.rs`, and of the names of node types that the shipped languages give.

A tree is written to bytes. The way Rust writes a string with `{:?}` is a parameter `debug`. `none` is a panic.
-/

namespace Fall

/-- `fall/tree/src/node_type.rs` 7-10. -/
structure TypeInfo where
  name : List UInt8
  whitespaceLike : Bool
deriving DecidableEq

section
variable (info : NodeType → Option TypeInfo) (debug : List UInt8 → List UInt8) (f : File UInt8) (ws : Bool)

/-- `fall/tree/src/util.rs` 29-51, with the buffer as a result. The number is a bound for the depth of the recursion. -/
def dumpNode : Nat → Nat → NodeId → Option (List UInt8)
  | 0, _, _ => none
  | fuel + 1, level, n => do
    let i ← info (← f.ty n)
    if i.whitespaceLike && !ws then return []
    let indent := (List.replicate level [32, 32]).flatten
    let children ← f.children n
    if children.isEmpty then return indent ++ i.name ++ [32] ++ debug (← f.textOf n) ++ [10]
    return indent ++ i.name ++ [10] ++ (← children.mapM (dumpNode fuel (level + 1))).flatten

/-- `fall/tree/src/util.rs` 24-27. -/
def dump : Option (List UInt8) := dumpNode info debug f ws f.nodes.length 0 f.root

/-- `fall/tree/src/util.rs` 4-6. -/
def dumpFile : Option (List UInt8) := dump info debug f false

/-- `fall/tree/src/util.rs` 8-10. -/
def dumpFileWs : Option (List UInt8) := dump info debug f true

end

/-- The arms of `node_type_info` in a generated language (`fall/gen/src/generate/mod.rs` 72-79), for the names of
the types from 100 on and the types that are like white space. -/
def tableInfo (names : List String) (white : NodeType → Bool) (ty : NodeType) : Option TypeInfo :=
  if ty == ERROR then some ⟨ascii "ERROR", white ty⟩
  else if ty < 100 then none
  else names[ty - 100]?.map fun name => ⟨ascii name, white ty⟩

/-- `lang/fall/syntax/src/fall.rs` 3-57 and 119-177. -/
def fallTypeNames : List String :=
  ["WHITESPACE", "EOL_COMMENT", "NODE", "CLASS", "TRAIT", "TOKENIZER", "RULE", "VERBATIM", "AST", "PUB", "TEST",
    "EQ", "PIPE", "STAR", "QUESTION", "DOT", "COMMA", "COLON", "HASH", "L_CURLY", "R_CURLY", "L_SQUARE", "R_SQUARE",
    "L_ANGLE", "R_ANGLE", "L_PAREN", "R_PAREN", "NUMBER", "SIMPLE_STRING", "HASH_STRING", "IDENT", "FALL_FILE",
    "SYN_RULE", "PARAMETERS", "PARAMETER", "REF_EXPR", "SEQ_EXPR", "BLOCK_EXPR", "OPT_EXPR", "REP_EXPR", "CALL_EXPR",
    "TOKENIZER_DEF", "LEX_RULE", "TEST_DEF", "ATTRIBUTES", "ATTRIBUTE", "ATTRIBUTE_VALUE", "STRING", "VERBATIM_DEF",
    "AST_DEF", "AST_NODE_DEF", "AST_CLASS_DEF", "AST_TRAIT_DEF", "METHOD_DEF", "AST_SELECTOR"]

/-- `lang/fall/syntax/src/fall.rs` 119-177. -/
def fallInfo : NodeType → Option TypeInfo := tableInfo fallTypeNames fallIsWs

/-- `lang/rust/syntax/src/rust.rs` 3-206 and 332-539. -/
def rustTypeNames : List String :=
  ["WHITESPACE", "LINE_COMMENT", "BLOCK_COMMENT", "UNION", "AS", "CRATE", "EXTERN", "FN", "LET", "PUB", "STRUCT",
    "USE", "MOD", "IF", "ELSE", "ENUM", "IMPL", "SELF", "SUPER", "TYPE", "CONST", "STATIC", "FOR", "LOOP", "WHILE",
    "MOVE", "MUT", "REF", "TRAIT", "MATCH", "RETURN", "CONTINUE", "BREAK", "IN", "UNSAFE", "WHERE", "L_PAREN",
    "R_PAREN", "L_CURLY", "R_CURLY", "L_ANGLE", "R_ANGLE", "L_BRACK", "R_BRACK", "SHL", "SHL_EQ", "SHR", "SHR_EQ",
    "AND", "OR", "THIN_ARROW", "FAT_ARROW", "EQ", "EQEQ", "BANGEQ", "GTET", "LTEQ", "SEMI", "COLON", "COLONCOLON",
    "COMMA", "DOT", "DOTDOT", "DOTDOTDOT", "HASH", "DOLLAR", "STAR", "STAR_EQ", "SLASH", "SLASH_EQ", "PERCENT",
    "PERCENT_EQ", "PLUS", "PLUS_EQ", "MINUS", "MINUS_EQ", "AMPERSAND", "AMPERSAND_EQ", "PIPE", "PIPE_EQ",
    "UNDERSCORE", "BANG", "QUESTION", "CARET", "CARET_EQ", "CHAR", "LIFETIME", "BOOL", "NUMBER", "STRING",
    "RAW_STRING", "IDENT", "FILE", "USE_DECL", "USE_SPEC", "USE_SPEC_ENTRY", "EXTERN_CRATE_DECL", "FN_DEF",
    "LINKAGE", "VALUE_PARAM", "LAMBDA_VALUE_PARAM", "SELF_PARAMETER", "STRUCT_DEF", "STRUCT_FIELD", "TUPLE_FIELD",
    "ENUM_DEF", "ENUM_VARIANT", "MOD_DEF", "IMPL_DEF", "TRAIT_DEF", "MEMBERS", "TYPE_DEF", "CONST_DEF", "MACRO_ITEM",
    "EXTERN_BLOCK", "TYPE_PARAMETERS", "TYPE_PARAMETER", "TYPE_BOUND", "LIFETIME_PARAMETER", "VISIBILITY",
    "WHERE_CLAUSE", "PATH", "TRAIT_PROJECTION_PATH", "PATH_SEGMENT", "TYPE_ARGUMENTS", "FN_TRAIT_SUGAR", "ALIAS",
    "TYPE_REFERENCE", "PATH_TYPE", "REFERENCE_TYPE", "POINTER_TYPE", "PLACEHOLDER_TYPE", "UNIT_TYPE", "PAREN_TYPE",
    "TUPLE_TYPE", "NEVER_TYPE", "ARRAY_TYPE", "FN_POINTER_TYPE", "FOR_TYPE", "WILDCARD_PATTERN", "PATH_PATTERN",
    "TUPE_STRUCT_PATTERN", "STRUCT_PATTERN", "STRUCT_PATTERN_FIELD", "BINDING_PATTERN", "LITERAL_PATTERN",
    "UNIT_PATTERN", "PAREN_PATTERN", "TUPLE_PATTERN", "REFERENCE_PATTERN", "EXPR", "LITERAL", "PATH_EXPR",
    "STRUCT_LITERAL", "STRUCT_LITERAL_FIELD", "UNIT_EXPR", "PAREN_EXPR", "TUPLE_EXPR", "ARRAY_LITERAL",
    "LAMBDA_EXPR", "RETURN_EXPR", "LOOP_CF_EXPR", "BLOCK_EXPR", "LET_STMT", "TYPE_ASCRIPTION", "EMPTY_STMT",
    "EXPR_STMT", "IF_EXPR", "WHILE_EXPR", "LOOP_EXPR", "FOR_EXPR", "MATCH_EXPR", "MATCH_ARM", "GUARD",
    "BLOCK_MACRO_EXPR", "LINE_MACRO_EXPR", "METHOD_CALL_EXPR", "CALL_EXPR", "VALUE_ARGUMENT", "FIELD_EXPR",
    "INDEX_EXPR", "TRY_EXPR", "CAST_EXPR", "REFERENCE_EXPR", "DEREFERENCE_EXPR", "NEGATION_EXPR", "NOT_EXPR",
    "PRODUCT_EXPR", "SUM_EXPR", "BIT_SHIFT", "BIT_AND", "BIT_XOR", "BIT_OR", "COMPARISON", "LOGICAL_AND",
    "LOGICAL_OR", "RANGE_EXPR", "ASSIGNMENT_EXPR", "ATTRIBUTE", "INNER_ATTRIBUTE", "ATTR_VALUE", "BLOCK_MACRO",
    "LINE_MACRO", "TT"]

/-- `lang/rust/syntax/src/rust.rs` 332-539. -/
def rustInfo : NodeType → Option TypeInfo := tableInfo rustTypeNames rustIsWs

end Fall
