import Verif.Registry.Tree

/-!
# The functions that look up a builtin by its name

Generated from the text of the functions; every `if` is one `when`, in the same order.
-/

namespace Verif.Registry

/-- `builtins::core`, src/builtins/core.cc 2686-3067. -/
def coreTree : List Stmt := [
  .front,
  .when (.lenGt 5) [
    .when (.lastGt 'n') [
      .when (.firstGt 'i') [
        .when (.lenGt 9) [
          .when (.lenGt 10) [
            .when (.oneOf ["trim_prefix"]) [.ret "trim_prefix"],
            .when (.oneOf ["trim_suffix"]) [.ret "trim_suffix"]],
          .when (.oneOf ["trim_right"]) [.ret "trim_right"]],
        .when (.lenGt 7) [
          .when (.lastGt 'r') [
            .when (.oneOf ["trim_left"]) [.ret "trim_left"]],
          .when (.oneOf ["to_number"]) [.ret "to_number"]],
        .when (.oneOf ["product"]) [.ret "product"]],
      .when (.lenGt 8) [
        .when (.lenGt 9) [
          .when (.oneOf ["format_int"]) [.ret "format_int"]],
        .when (.lastGt 'r') [
          .when (.oneOf ["is_object"]) [.ret "is_object"]],
        .when (.oneOf ["is_number"]) [.ret "is_number"]],
      .when (.lenGt 6) [
        .when (.firstGt 'c') [
          .when (.oneOf ["is_array"]) [.ret "is_array"]],
        .when (.oneOf ["contains"]) [.ret "contains"]],
      .when (.firstGt 'c') [
        .when (.oneOf ["is_set"]) [.ret "is_set"]],
      .when (.oneOf ["concat"]) [.ret "concat"]],
    .when (.firstGt 'i') [
      .when (.lastGt 'e') [
        .when (.lenGt 7) [
          .when (.lenGt 9) [
            .when (.oneOf ["startswith"]) [.ret "startswith"]],
          .when (.oneOf ["substring"]) [.ret "substring"]],
        .when (.oneOf ["sprintf"]) [.ret "sprintf"]],
      .when (.lenGt 7) [
        .when (.lenGt 9) [
          .when (.oneOf ["trim_space"]) [.ret "trim_space"]],
        .when (.oneOf ["type_name"]) [.ret "type_name"]],
      .when (.oneOf ["replace"]) [.ret "replace"]],
    .when (.lastGt 'h') [
      .when (.lenGt 7) [
        .when (.lenGt 9) [
          .when (.lenGt 10) [
            .when (.oneOf ["intersection"]) [.ret "intersection"]],
          .when (.oneOf ["is_boolean"]) [.ret "is_boolean"]],
        .when (.oneOf ["indexof_n"]) [.ret "indexof_n"]],
      .when (.oneOf ["is_null"]) [.ret "is_null"]],
    .when (.lenGt 7) [
      .when (.lenGt 8) [
        .when (.oneOf ["is_string"]) [.ret "is_string"]],
      .when (.oneOf ["endswith"]) [.ret "endswith"]],
    .when (.oneOf ["indexof"]) [.ret "indexof"]],
  .when (.lenGt 3) [
    .when (.firstGt 'm') [
      .when (.lenGt 4) [
        .when (.firstGt 'r') [
          .when (.firstGt 's') [
            .when (.lastGt 'n') [
              .when (.oneOf ["upper"]) [.ret "upper"]],
            .when (.oneOf ["union"]) [.ret "union"]],
          .when (.oneOf ["split"]) [.ret "split"]],
        .when (.oneOf ["round"]) [.ret "round"]],
      .when (.firstGt 'p') [
        .when (.firstGt 's') [
          .when (.firstGt 't') [
            .when (.oneOf ["walk"]) [.ret "walk"]],
          .when (.oneOf ["trim"]) [.ret "trim"]],
        .when (.oneOf ["sort"]) [.ret "sort"]],
      .when (.oneOf ["plus"]) [.ret "plus"]],
    .when (.firstGt 'c') [
      .when (.firstGt 'e') [
        .when (.firstGt 'f') [
          .when (.firstGt 'l') [
            .when (.oneOf ["minus"]) [.ret "minus"]],
          .when (.oneOf ["lower"]) [.ret "lower"]],
        .when (.oneOf ["floor"]) [.ret "floor"]],
      .when (.oneOf ["equal"]) [.ret "equal"]],
    .when (.lenGt 4) [
      .when (.oneOf ["count"]) [.ret "count"]],
    .when (.oneOf ["ceil"]) [.ret "ceil"]],
  .when (.firstGt 'l') [
    .when (.firstGt 'm') [
      .when (.lastGt 'm') [
        .when (.lenGt 2) [
          .when (.oneOf ["neq"]) [.ret "neq"]],
        .when (.oneOf ["or"]) [.ret "or"]],
      .when (.firstGt 'r') [
        .when (.oneOf ["sum"]) [.ret "sum"]],
      .when (.oneOf ["rem"]) [.ret "rem"]],
    .when (.lastGt 'l') [
      .when (.lastGt 'n') [
        .when (.oneOf ["max"]) [.ret "max"]],
      .when (.oneOf ["min"]) [.ret "min"]],
    .when (.oneOf ["mul"]) [.ret "mul"]],
  .when (.lastGt 'e') [
    .when (.lenGt 2) [
      .when (.firstGt 'a') [
        .when (.oneOf ["div"]) [.ret "div"]],
      .when (.oneOf ["abs"]) [.ret "abs"]],
    .when (.firstGt 'g') [
      .when (.oneOf ["lt"]) [.ret "lt"]],
    .when (.oneOf ["gt"]) [.ret "gt"]],
  .when (.firstGt 'a') [
    .when (.firstGt 'g') [
      .when (.oneOf ["lte"]) [.ret "lte"]],
    .when (.oneOf ["gte"]) [.ret "gte"]],
  .when (.oneOf ["and"]) [.ret "and"],
  .null]

/-- `builtins::strings`, src/builtins/core.cc 3069-3103. -/
def stringsTree : List Stmt := [
  .skip 8,
  .when (.oneOf ["count"]) [.ret "strings.count"],
  .when (.oneOf ["any_prefix_match"]) [.ret "strings.any_prefix_match"],
  .when (.oneOf ["any_suffix_match"]) [.ret "strings.any_suffix_match"],
  .when (.oneOf ["render_template"]) [.ret "render_template"],
  .when (.oneOf ["replace_n"]) [.ret "strings.replace_n"],
  .when (.oneOf ["reverse"]) [.ret "reverse"],
  .null]

/-- `builtins::array`, src/builtins/array.cc 230-251. -/
def arrayTree : List Stmt := [
  .check "array.",
  .skip 6,
  .when (.oneOf ["concat"]) [.ret "array.concat"],
  .when (.oneOf ["flatten"]) [.ret "array.flatten"],
  .when (.oneOf ["reverse"]) [.ret "array.reverse"],
  .when (.oneOf ["slice"]) [.ret "array.slice"],
  .null]

/-- `builtins::aws`, src/builtins/aws.cc 40-50. -/
def awsTree : List Stmt := [
  .check "providers.aws.",
  .skip 14,
  .when (.oneOf ["sign_req"]) [.ret "providers.aws.sign_req"],
  .null]

/-- `builtins::bits`, src/builtins/bits.cc 315-345. -/
def bitsTree : List Stmt := [
  .check "bits.",
  .skip 5,
  .when (.oneOf ["and"]) [.ret "bits.and"],
  .when (.oneOf ["lsh"]) [.ret "bits.lsh"],
  .when (.oneOf ["negate"]) [.ret "bits.negate"],
  .when (.oneOf ["or"]) [.ret "bits.or"],
  .when (.oneOf ["rsh"]) [.ret "bits.rsh"],
  .when (.oneOf ["xor"]) [.ret "bits.xor"],
  .null]

/-- `builtins::crypto`, src/builtins/crypto.cc 778-856. -/
def cryptoTree : List Stmt := [
  .check "crypto.",
  .skip 7,
  .when (.at0 'h') [
    .check "hmac.",
    .skip 5,
    .when (.oneOf ["equal"]) [.ret "crypto.hmac.equal"],
    .when (.oneOf ["md5"]) [.ret "crypto.hmac.md5"],
    .when (.oneOf ["sha1"]) [.ret "crypto.hmac.sha1"],
    .when (.oneOf ["sha256"]) [.ret "crypto.hmac.sha256"],
    .when (.oneOf ["sha512"]) [.ret "crypto.hmac.sha512"]],
  .when (.at0 'x') [
    .check "x509.",
    .skip 5,
    .when (.oneOf ["parse_and_verify_certificates"]) [.ret "crypto.x509.parse_and_verify_certificates"],
    .when (.oneOf ["parse_and_verify_certificates_with_options"]) [.ret "crypto.x509.parse_and_verify_certificates_with_options"],
    .when (.oneOf ["parse_certificate_request"]) [.ret "crypto.x509.parse_certificate_request"],
    .when (.oneOf ["parse_certificates"]) [.ret "crypto.x509.parse_certificates"],
    .when (.oneOf ["parse_keypair"]) [.ret "crypto.x509.parse_keypair"],
    .when (.oneOf ["parse_rsa_private_key"]) [.ret "crypto.x509.parse_rsa_private_key"]],
  .when (.oneOf ["md5"]) [.ret "crypto.md5"],
  .when (.oneOf ["sha1"]) [.ret "crypto.sha1"],
  .when (.oneOf ["sha256"]) [.ret "crypto.sha256"],
  .when (.oneOf ["parse_private_keys"]) [.ret "crypto.parse_private_keys"],
  .null]

/-- `builtins::base64`, src/builtins/encoding.cc 706-724. -/
def base64Tree : List Stmt := [
  .check "base64.",
  .skip 7,
  .when (.oneOf ["encode"]) [.ret "base64.encode"],
  .when (.oneOf ["decode"]) [.ret "base64.decode"],
  .when (.oneOf ["is_valid"]) [.ret "base64.is_valid"],
  .null]

/-- `builtins::base64url`, src/builtins/encoding.cc 726-744. -/
def base64urlTree : List Stmt := [
  .check "base64url.",
  .skip 10,
  .when (.oneOf ["encode"]) [.ret "base64url.encode"],
  .when (.oneOf ["encode_no_pad"]) [.ret "base64url.encode_no_pad"],
  .when (.oneOf ["decode"]) [.ret "base64url.decode"],
  .null]

/-- `builtins::hex`, src/builtins/encoding.cc 746-760. -/
def hexTree : List Stmt := [
  .check "hex.",
  .skip 4,
  .when (.oneOf ["encode"]) [.ret "hex.encode"],
  .when (.oneOf ["decode"]) [.ret "hex.decode"],
  .null]

/-- `builtins::yaml`, src/builtins/encoding.cc 762-780. -/
def yamlTree : List Stmt := [
  .check "yaml.",
  .skip 5,
  .when (.oneOf ["marshal"]) [.ret "yaml.marshal"],
  .when (.oneOf ["unmarshal"]) [.ret "yaml.unmarshal"],
  .when (.oneOf ["is_valid"]) [.ret "yaml.is_valid"],
  .null]

/-- `builtins::urlquery`, src/builtins/encoding.cc 782-804. -/
def urlqueryTree : List Stmt := [
  .check "urlquery.",
  .skip 9,
  .when (.oneOf ["encode"]) [.ret "urlquery.encode"],
  .when (.oneOf ["encode_object"]) [.ret "urlquery.encode_object"],
  .when (.oneOf ["decode"]) [.ret "urlquery.decode"],
  .when (.oneOf ["decode_object"]) [.ret "urlquery.decode_object"],
  .null]

/-- `builtins::glob`, src/builtins/glob.cc 674-688. -/
def globTree : List Stmt := [
  .check "glob.",
  .skip 5,
  .when (.oneOf ["match"]) [.ret "glob.match"],
  .when (.oneOf ["quote_meta"]) [.ret "glob.quote_meta"],
  .null]

/-- `builtins::graph`, src/builtins/graph.cc 364-378. -/
def graphTree : List Stmt := [
  .check "graph.",
  .skip 6,
  .when (.oneOf ["reachable"]) [.ret "graph.reachable"],
  .when (.oneOf ["reachable_paths"]) [.ret "graph.reachable_paths"],
  .null]

/-- `builtins::graphql`, src/builtins/graphql.cc 181-211. -/
def graphqlTree : List Stmt := [
  .check "graphql.",
  .skip 8,
  .when (.oneOf ["is_valid"]) [.ret "graphql.is_valid"],
  .when (.oneOf ["parse"]) [.ret "graphql.parse"],
  .when (.oneOf ["parse_and_verify"]) [.ret "graphql.parse_and_verify"],
  .when (.oneOf ["parse_query"]) [.ret "graphql.parse_query"],
  .when (.oneOf ["parse_schema"]) [.ret "graphql.parse_schema"],
  .when (.oneOf ["schema_is_valid"]) [.ret "graphql.schema_is_valid"],
  .null]

/-- `builtins::http`, src/builtins/http.cc 33-43. -/
def httpTree : List Stmt := [
  .check "http.",
  .skip 5,
  .when (.oneOf ["send"]) [.ret "http.send"],
  .null]

/-- `builtins::internal`, src/builtins/internal.cc 302-324. -/
def internalTree : List Stmt := [
  .check "internal.",
  .skip 9,
  .when (.oneOf ["member_2"]) [.ret "internal.member_2"],
  .when (.oneOf ["member_3"]) [.ret "internal.member_3"],
  .when (.oneOf ["print"]) [.ret "internal.print"],
  .when (.oneOf ["template_string"]) [.ret "internal.template_string"],
  .null]

/-- `builtins::json`, src/builtins/json.cc 1777-1827. -/
def jsonTree : List Stmt := [
  .check "json.",
  .skip 5,
  .when (.oneOf ["marshal"]) [.ret "json.marshal"],
  .when (.oneOf ["marshal_with_options"]) [.ret "json.marshal_with_options"],
  .when (.oneOf ["unmarshal"]) [.ret "json.unmarshal"],
  .when (.oneOf ["is_valid"]) [.ret "json.is_valid"],
  .when (.oneOf ["filter"]) [.ret "json.filter"],
  .when (.oneOf ["remove"]) [.ret "json.remove"],
  .when (.oneOf ["match_schema"]) [.ret "json.match_schema"],
  .when (.oneOf ["verify_schema"]) [.ret "json.verify_schema"],
  .when (.oneOf ["patch"]) [.ret "json.patch"],
  .null]

/-- `builtins::jwt`, src/builtins/jwt.cc 1050-1090. -/
def jwtTree : List Stmt := [
  .check "io.jwt.",
  .skip 7,
  .when (.oneOf ["decode"]) [.ret "io.jwt.decode"],
  .when (.oneOf ["decode_verify"]) [.ret "io.jwt.decode_verify"],
  .when (.oneOf ["verify_eddsa", "verify_es256", "verify_es384", "verify_es512", "verify_hs256", "verify_hs384", "verify_hs512", "verify_ps256", "verify_ps384", "verify_ps512", "verify_rs256", "verify_rs384", "verify_rs512"]) [.retName],
  .when (.oneOf ["encode_sign"]) [.ret "io.jwt.encode_sign"],
  .when (.oneOf ["encode_sign_raw"]) [.ret "io.jwt.encode_sign_raw"],
  .null]

/-- `builtins::net`, src/builtins/net.cc 199-233. -/
def netTree : List Stmt := [
  .check "net.",
  .skip 4,
  .when (.oneOf ["cidr_contains"]) [.ret "net.cidr_contains"],
  .when (.oneOf ["cidr_contains_matches"]) [.ret "net.cidr_contains_matches"],
  .when (.oneOf ["cidr_expand"]) [.ret "net.cidr_expand"],
  .when (.oneOf ["cidr_intersects"]) [.ret "net.cidr_intersects"],
  .when (.oneOf ["cidr_is_valid"]) [.ret "net.cidr_is_valid"],
  .when (.oneOf ["cidr_merge"]) [.ret "net.cidr_merge"],
  .when (.oneOf ["lookup_ip_addr"]) [.ret "net.lookup_ip_addr"],
  .null]

/-- `builtins::numbers`, src/builtins/numbers.cc 222-235. -/
def numbersTree : List Stmt := [
  .skip 8,
  .when (.oneOf ["range"]) [.ret "numbers.range"],
  .when (.oneOf ["range_step"]) [.ret "numbers.range_step"],
  .null]

/-- `builtins::rand`, src/builtins/numbers.cc 237-246. -/
def randTree : List Stmt := [
  .skip 5,
  .when (.oneOf ["intn"]) [.ret "rand.intn"],
  .null]

/-- `builtins::object`, src/builtins/objects.cc 620-654. -/
def objectTree : List Stmt := [
  .check "object.",
  .skip 7,
  .when (.oneOf ["filter"]) [.ret "object.filter"],
  .when (.oneOf ["get"]) [.ret "object.get"],
  .when (.oneOf ["keys"]) [.ret "object.keys"],
  .when (.oneOf ["remove"]) [.ret "object.remove"],
  .when (.oneOf ["subset"]) [.ret "object.subset"],
  .when (.oneOf ["union"]) [.ret "object.union"],
  .when (.oneOf ["union_n"]) [.ret "object.union_n"],
  .null]

/-- `builtins::opa`, src/builtins/opa.cc 37-47. -/
def opaTree : List Stmt := [
  .check "opa.",
  .skip 4,
  .when (.oneOf ["runtime"]) [.ret "opa.runtime"],
  .null]

/-- `builtins::regex`, src/builtins/regex.cc 1408-1446. -/
def regexTree : List Stmt := [
  .check "regex.",
  .skip 6,
  .when (.oneOf ["find_all_string_submatch_n"]) [.ret "regex.find_all_string_submatch_n"],
  .when (.oneOf ["find_n"]) [.ret "regex.find_n"],
  .when (.oneOf ["is_valid"]) [.ret "regex.is_valid"],
  .when (.oneOf ["match"]) [.ret "regex.match"],
  .when (.oneOf ["replace"]) [.ret "regex.replace"],
  .when (.oneOf ["split"]) [.ret "regex.split"],
  .when (.oneOf ["template_match"]) [.ret "regex.template_match"],
  .when (.oneOf ["globs_match"]) [.ret "regex.globs_match"],
  .null]

/-- `builtins::rego`, src/builtins/rego.cc 66-84. -/
def regoTree : List Stmt := [
  .check "rego.",
  .skip 5,
  .when (.oneOf ["metadata.chain"]) [.ret "rego.metadata.chain"],
  .when (.oneOf ["metadata.rule"]) [.ret "rego.metadata.rule"],
  .when (.oneOf ["parse_module"]) [.ret "rego.parse_module"],
  .null]

/-- `builtins::semver`, src/builtins/semver.cc 228-242. -/
def semverTree : List Stmt := [
  .check "semver.",
  .skip 7,
  .when (.oneOf ["compare"]) [.ret "semver.compare"],
  .when (.oneOf ["is_valid"]) [.ret "semver.is_valid"],
  .null]

/-- `builtins::time`, src/builtins/time.cc 1197-1243. -/
def timeTree : List Stmt := [
  .check "time.",
  .skip 5,
  .when (.oneOf ["now_ns"]) [.ret "time.now_ns"],
  .when (.oneOf ["parse_duration_ns"]) [.ret "time.parse_duration_ns"],
  .when (.oneOf ["add_date"]) [.ret "time.add_date"],
  .when (.oneOf ["clock"]) [.ret "time.clock"],
  .when (.oneOf ["date"]) [.ret "time.date"],
  .when (.oneOf ["diff"]) [.ret "time.diff"],
  .when (.oneOf ["format"]) [.ret "time.format"],
  .when (.oneOf ["parse_ns"]) [.ret "time.parse_ns"],
  .when (.oneOf ["parse_rfc3339_ns"]) [.ret "time.parse_rfc3339_ns"],
  .when (.oneOf ["weekday"]) [.ret "time.weekday"],
  .null]

/-- `builtins::units`, src/builtins/units.cc 309-322. -/
def unitsTree : List Stmt := [
  .check "units.",
  .skip 6,
  .when (.oneOf ["parse"]) [.ret "units.parse"],
  .when (.oneOf ["parse_bytes"]) [.ret "units.parse_bytes"],
  .null]

/-- `builtins::uri`, src/builtins/uri.cc 358-372. -/
def uriTree : List Stmt := [
  .check "uri.",
  .skip 4,
  .when (.oneOf ["parse"]) [.ret "uri.parse"],
  .when (.oneOf ["is_valid"]) [.ret "uri.is_valid"],
  .null]

/-- `builtins::uuid`, src/builtins/uuid.cc 448-461. -/
def uuidTree : List Stmt := [
  .check "uuid.",
  .skip 5,
  .when (.oneOf ["parse"]) [.ret "uuid.parse"],
  .when (.oneOf ["rfc4122"]) [.ret "uuid.rfc4122"],
  .raise]

/-- The second part of `BuiltInsDef::lookup`, src/builtins.cc 269-478; the name returned is the function called. -/
def lookupTree : List Stmt := [
  .front,
  .when (.lenGt 4) [
    .when (.lenGt 6) [
      .when (.lenGt 7) [
        .when (.lenGt 8) [
          .when (.firstGt 'b') [
            .when (.oneOf ["providers"]) [.ret "aws"]],
          .when (.oneOf ["base64url"]) [.ret "base64url"]],
        .when (.firstGt 'i') [
          .when (.oneOf ["urlquery"]) [.ret "urlquery"]],
        .when (.oneOf ["internal"]) [.ret "internal"]],
      .when (.firstGt 'g') [
        .when (.firstGt 'n') [
          .when (.oneOf ["strings"]) [.ret "strings"]],
        .when (.oneOf ["numbers"]) [.ret "numbers"]],
      .when (.oneOf ["graphql"]) [.ret "graphql"]],
    .when (.lenGt 5) [
      .when (.firstGt 'b') [
        .when (.firstGt 'c') [
          .when (.firstGt 'o') [
            .when (.oneOf ["semver"]) [.ret "semver"]],
          .when (.oneOf ["object"]) [.ret "object"]],
        .when (.oneOf ["crypto"]) [.ret "crypto"]],
      .when (.oneOf ["base64"]) [.ret "base64"]],
    .when (.firstGt 'a') [
      .when (.firstGt 'g') [
        .when (.firstGt 'r') [
          .when (.oneOf ["units"]) [.ret "units"]],
        .when (.oneOf ["regex"]) [.ret "regex"]],
      .when (.oneOf ["graph"]) [.ret "graph"]],
    .when (.oneOf ["array"]) [.ret "array"]],
  .when (.firstGt 'j') [
    .when (.firstGt 'r') [
      .when (.lenGt 3) [
        .when (.firstGt 't') [
          .when (.firstGt 'u') [
            .when (.oneOf ["yaml"]) [.ret "yaml"]],
          .when (.oneOf ["uuid"]) [.ret "uuid"]],
        .when (.oneOf ["time"]) [.ret "time"]],
      .when (.oneOf ["uri"]) [.ret "uri"]],
    .when (.lenGt 3) [
      .when (.lastGt 'd') [
        .when (.oneOf ["rego"]) [.ret "rego"]],
      .when (.oneOf ["rand"]) [.ret "rand"]],
    .when (.firstGt 'n') [
      .when (.oneOf ["opa"]) [.ret "opa"]],
    .when (.oneOf ["net"]) [.ret "net"]],
  .when (.lastGt 'o') [
    .when (.lenGt 3) [
      .when (.firstGt 'b') [
        .when (.oneOf ["http"]) [.ret "http"]],
      .when (.oneOf ["bits"]) [.ret "bits"]],
    .when (.oneOf ["hex"]) [.ret "hex"]],
  .when (.lenGt 2) [
    .when (.firstGt 'g') [
      .when (.oneOf ["json"]) [.ret "json"]],
    .when (.oneOf ["glob"]) [.ret "glob"]],
  .when (.oneOf ["io"]) [.ret "jwt"],
  .null]

/-- The functions `lookup` calls. -/
def modules : List (String × List Stmt) := [
  ("core", coreTree),
  ("strings", stringsTree),
  ("array", arrayTree),
  ("aws", awsTree),
  ("bits", bitsTree),
  ("crypto", cryptoTree),
  ("base64", base64Tree),
  ("base64url", base64urlTree),
  ("hex", hexTree),
  ("yaml", yamlTree),
  ("urlquery", urlqueryTree),
  ("glob", globTree),
  ("graph", graphTree),
  ("graphql", graphqlTree),
  ("http", httpTree),
  ("internal", internalTree),
  ("json", jsonTree),
  ("jwt", jwtTree),
  ("net", netTree),
  ("numbers", numbersTree),
  ("rand", randTree),
  ("object", objectTree),
  ("opa", opaTree),
  ("regex", regexTree),
  ("rego", regoTree),
  ("semver", semverTree),
  ("time", timeTree),
  ("units", unitsTree),
  ("uri", uriTree),
  ("uuid", uuidTree)]

end Verif.Registry
