import Verif.Registry.Tree

/-!
# Specification: the names of the standard library
-/

namespace Verif.Registry

/-- The names of the standard builtins, one for each definition in src/builtins/*.cc. -/
def stdNames : List String := [
  "abs", "and", "array.concat", "array.flatten", "array.reverse", "array.slice",
  "base64.decode", "base64.encode", "base64.is_valid", "base64url.decode", "base64url.encode",
  "base64url.encode_no_pad", "bits.and", "bits.lsh", "bits.negate", "bits.or", "bits.rsh",
  "bits.xor", "ceil", "concat", "contains", "count", "crypto.hmac.equal", "crypto.hmac.md5",
  "crypto.hmac.sha1", "crypto.hmac.sha256", "crypto.hmac.sha512", "crypto.md5",
  "crypto.parse_private_keys", "crypto.sha1", "crypto.sha256",
  "crypto.x509.parse_and_verify_certificates",
  "crypto.x509.parse_and_verify_certificates_with_options",
  "crypto.x509.parse_certificate_request", "crypto.x509.parse_certificates",
  "crypto.x509.parse_keypair", "crypto.x509.parse_rsa_private_key", "div", "endswith", "equal",
  "floor", "format_int", "glob.match", "glob.quote_meta", "graph.reachable",
  "graph.reachable_paths", "graphql.is_valid", "graphql.parse", "graphql.parse_and_verify",
  "graphql.parse_query", "graphql.parse_schema", "graphql.schema_is_valid", "gt", "gte",
  "hex.decode", "hex.encode", "http.send", "indexof", "indexof_n", "internal.member_2",
  "internal.member_3", "internal.print", "internal.template_string", "intersection",
  "io.jwt.decode", "io.jwt.decode_verify", "io.jwt.encode_sign", "io.jwt.encode_sign_raw",
  "io.jwt.verify_eddsa", "io.jwt.verify_es256", "io.jwt.verify_es384", "io.jwt.verify_es512",
  "io.jwt.verify_hs256", "io.jwt.verify_hs384", "io.jwt.verify_hs512", "io.jwt.verify_ps256",
  "io.jwt.verify_ps384", "io.jwt.verify_ps512", "io.jwt.verify_rs256", "io.jwt.verify_rs384",
  "io.jwt.verify_rs512", "is_array", "is_boolean", "is_null", "is_number", "is_object",
  "is_set", "is_string", "json.filter", "json.is_valid", "json.marshal",
  "json.marshal_with_options", "json.match_schema", "json.patch", "json.remove",
  "json.unmarshal", "json.verify_schema", "lower", "lt", "lte", "max", "min", "minus", "mul",
  "neq", "net.cidr_contains", "net.cidr_contains_matches", "net.cidr_expand",
  "net.cidr_intersects", "net.cidr_is_valid", "net.cidr_merge", "net.lookup_ip_addr",
  "numbers.range", "numbers.range_step", "object.filter", "object.get", "object.keys",
  "object.remove", "object.subset", "object.union", "object.union_n", "opa.runtime", "or",
  "plus", "product", "providers.aws.sign_req", "rand.intn", "regex.find_all_string_submatch_n",
  "regex.find_n", "regex.globs_match", "regex.is_valid", "regex.match", "regex.replace",
  "regex.split", "regex.template_match", "rego.metadata.chain", "rego.metadata.rule",
  "rego.parse_module", "rem", "replace", "round", "semver.compare", "semver.is_valid", "sort",
  "split", "sprintf", "startswith", "strings.any_prefix_match", "strings.any_suffix_match",
  "strings.count", "strings.render_template", "strings.replace_n", "strings.reverse",
  "substring", "sum", "time.add_date", "time.clock", "time.date", "time.diff", "time.format",
  "time.now_ns", "time.parse_duration_ns", "time.parse_ns", "time.parse_rfc3339_ns",
  "time.weekday", "to_number", "trim", "trim_left", "trim_prefix", "trim_right", "trim_space",
  "trim_suffix", "type_name", "union", "units.parse", "units.parse_bytes", "upper",
  "uri.is_valid", "uri.parse", "urlquery.decode", "urlquery.decode_object", "urlquery.encode",
  "urlquery.encode_object", "uuid.parse", "uuid.rfc4122", "walk", "yaml.is_valid",
  "yaml.marshal", "yaml.unmarshal"]

/-- A name of the standard library. -/
def Std (n : Str) : Prop := ∃ s ∈ stdNames, s.toList = n

instance (n : Str) : Decidable (Std n) := inferInstanceAs (Decidable (∃ s ∈ stdNames, s.toList = n))

/-- The name a standard builtin declares: its own, but two drop their prefix
(src/builtins/core.cc 2567, 2677). -/
def declares (n : Str) : Str :=
  if n = "strings.reverse".toList then "reverse".toList
  else if n = "strings.render_template".toList then "render_template".toList
  else n

/-- Names for which the look-up is well behaved: nonempty, not starting with a dot, and
names of a standard builtin or outside the prefixes the code treats by position. -/
structure Regular (n : Str) : Prop where
  ne : n ≠ []
  dot : n.head? ≠ some '.'
  aws : "providers.".toList <+: n → "providers.aws.".toList <+: n
  jwt : "io.".toList <+: n → "io.jwt.".toList <+: n
  crypto : "crypto.".toList <+: n → Std n ∨
    ∃ c, (n.drop 7).head? = some c ∧ c ≠ 'h' ∧ c ≠ 'x'
  uuid : "uuid.".toList <+: n → Std n

end Verif.Registry
