#!/usr/bin/env python3
"""Translates tests of the project that compare a value with the tokens it streams into Lean.

Usage: suite/gen.py, from /verif, with the project in /repo. Writes lean/Verif/Suite/{Derive,Flatten,Values}.lean.
"""
import re, sys, os

REPO = "/repo"

# ---------------------------------------------------------------- lexing

LEX = re.compile(r"""
    (?P<ws>\s+|//[^\n]*|/\*.*?\*/)
  | (?P<float>\d+\.\d+(?:f32|f64)?)
  | (?P<int>\d[\d_]*(?:[iu](?:8|16|32|64|128|size)|f32|f64)?)
  | (?P<bytes>b"(?:[^"\\]|\\.)*")
  | (?P<str>"(?:[^"\\]|\\.)*")
  | (?P<life>'[a-zA-Z_]\w*)
  | (?P<id>(?:r\#)?[A-Za-z_]\w*)
  | (?P<op>::|->|=>|[-&*+!?.,;:(){}\[\]<>=#|$/%^@~'])
""", re.X | re.S)


def lex(s, base=0):
    out, i = [], 0
    while i < len(s):
        m = LEX.match(s, i)
        if not m:
            raise SyntaxError(s[i:i + 40])
        if m.lastgroup != "ws":
            out.append((m.lastgroup, m.group(m.lastgroup), base + s.count("\n", 0, i) + 1))
        i = m.end()
    return out


class P:
    def __init__(self, toks):
        self.t, self.i = toks, 0

    def peek(self, k=0):
        return self.t[self.i + k][1] if self.i + k < len(self.t) else None

    def kind(self):
        return self.t[self.i][0] if self.i < len(self.t) else None

    def next(self):
        self.i += 1
        return self.t[self.i - 1][1]

    def eat(self, x):
        if self.peek() == x:
            self.i += 1
            return True
        return False

    def need(self, x):
        if not self.eat(x):
            raise SyntaxError(f"wanted {x}, got {self.t[self.i:self.i+6]}")

    def skip_group(self):
        """skip a bracketed group"""
        depth = 0
        while True:
            x = self.next()
            if x in "([{":
                depth += 1
            elif x in ")]}":
                depth -= 1
                if depth == 0:
                    return

    def angle(self):
        depth = 0
        while True:
            x = self.next()
            if x == "<":
                depth += 1
            elif x == ">":
                depth -= 1
                if depth == 0:
                    return

    def path(self):
        parts = [self.next()]
        while self.peek() == "::":
            self.next()
            if self.peek() == "<":
                self.angle()
            else:
                parts.append(self.next())
        return [p[2:] if p.startswith("r#") else p for p in parts]

    def expr(self):
        e = self.unary()
        while True:
            if self.peek() == "." and self.t[self.i + 1][0] == "id":
                self.next()
                name = self.next()
                args = self.args() if self.peek() == "(" else None
                e = ("method", e, name, args)
            elif self.peek() == "as":
                self.next()
                e = ("as", e, self.type())
            elif self.peek() == "?":
                self.next()
            else:
                return e

    def type(self):
        start = self.i
        while self.peek() in ("&", "*", "mut", "dyn") or self.kind() == "life":
            self.next()
        if self.peek() in ("(", "["):
            self.skip_group()
        else:
            self.path()
            if self.peek() == "<":
                self.angle()
        return "".join(t[1] for t in self.t[start:self.i])

    def args(self):
        self.need("(")
        out = []
        while not self.eat(")"):
            out.append(self.expr())
            self.eat(",")
        return out

    def unary(self):
        k, x = self.kind(), self.peek()
        if x == "-":
            self.next()
            return ("neg", self.unary())
        if x == "&":
            self.next()
            return ("ref", self.unary())
        if k in ("int", "float", "str", "bytes"):
            return (k, self.next())
        if x == "[":
            self.next()
            out = []
            while not self.eat("]"):
                out.append(self.expr())
                self.eat(",")
            return ("array", out)
        if x == "(":
            self.next()
            out, comma = [], False
            while not self.eat(")"):
                out.append(self.expr())
                comma = self.eat(",") or comma
            return out[0] if len(out) == 1 and not comma else ("tuple", out)
        if x == "{":
            # { use sval_test::Token::*; expr }
            self.next()
            while self.peek() == "use":
                while self.next() != ";":
                    pass
            e = self.expr()
            self.need("}")
            return e
        if x in ("true", "false"):
            return ("bool", self.next())
        if x == "vec" and self.peek(1) == "!":
            self.next(); self.next()
            return ("vec", self.unary()[1])
        if k == "id":
            p = self.path()
            if self.peek() == "(":
                return ("call", p, self.args())
            if self.peek() == "{" and p[-1][0].isupper():
                self.next()
                out = []
                while not self.eat("}"):
                    n = self.next()
                    if n.startswith("r#"):
                        n = n[2:]
                    self.need(":")
                    out.append((n, self.expr()))
                    self.eat(",")
                return ("struct", p, out)
            return ("path", p)
        raise SyntaxError(str(self.t[self.i:self.i + 8]))

    # ------------------------------------------------------------ items

    def attr(self):
        """#[...]: (path, items) or None"""
        self.need("#")
        self.eat("!")
        start = self.i
        if self.peek(1) != "sval":
            self.skip_group()
            return None
        self.need("[")
        self.next()
        self.need("(")
        items = []
        while not self.eat(")"):
            key = self.next()
            val = None
            if self.eat("="):
                val = self.expr()
            items.append((key, val))
            self.eat(",")
        self.need("]")
        return items

    def attrs(self):
        out = []
        while self.peek() == "#":
            a = self.attr()
            if a is not None:
                out.append(a)
        return out

    def fields(self):
        """fields of a struct or variant"""
        if self.peek() == "{":
            self.next()
            out = []
            while not self.eat("}"):
                a = self.attrs()
                self.eat("pub")
                n = self.next()
                if n.startswith("r#"):
                    n = n[2:]
                self.need(":")
                out.append((n, a, self.type()))
                self.eat(",")
            return ("named", out)
        if self.peek() == "(":
            self.next()
            out = []
            while not self.eat(")"):
                a = self.attrs()
                self.eat("pub")
                out.append((None, a, self.type()))
                self.eat(",")
            return ("unnamed", out)
        return ("unit", [])

    def item(self, attrs):
        self.eat("pub")
        kw = self.next()
        name = self.next()
        if name.startswith("r#"):
            name = name[2:]
        if self.peek() == "<":
            self.angle()
        if kw == "struct":
            f = self.fields()
            self.eat(";")
            return dict(kw=kw, name=name, attrs=attrs, fields=f)
        if kw == "union":
            self.skip_group()
            return dict(kw=kw, name=name, attrs=attrs)
        self.need("{")
        vs = []
        while not self.eat("}"):
            a = self.attrs()
            n = self.next()
            if n.startswith("r#"):
                n = n[2:]
            f = self.fields()
            d = self.expr() if self.eat("=") else None
            vs.append(dict(name=n, attrs=a, fields=f, discr=d))
            self.eat(",")
        return dict(kw=kw, name=name, attrs=attrs, variants=vs)


# ---------------------------------------------------------------- Lean

def lit(s):
    return 't! "' + s[1:-1] + '"'


def text(s):
    return f'(t! "{s}")'


INTS = {"u8", "u16", "u32", "u64", "u128", "i8", "i16", "i32", "i64", "i128"}
BITS = {"3.14f64": ("f64", "4614253070214989087"), "3.14159f64": ("f64", "4614256650576692846"),
        "3.14f32": ("f32", "1078523331")}
TOKARITY = {"RecordTupleBegin": 4, "TupleBegin": 4, "RecordBegin": 4}


def tokarg(e, env):
    k = e[0]
    if k == "path":
        p = e[1]
        if p == ["None"]:
            return "none"
        if p[-2:-1] == ["tags"]:
            return f"tags.{p[-1]}"
        if len(p) == 1 and p[0] in env["tags"]:
            return f"(tag ({lit(env['tags'][p[0]])}))"
    if k == "call":
        f = e[1]
        if f == ["Some"]:
            return f"(some {tokarg(e[2][0], env)})"
        if f[-2:] == ["Label", "new"]:
            return f"(label ({lit(e[2][0][1])}))"
        if f[-2:] == ["Tag", "new"]:
            return f"(tag ({lit(e[2][0][1])}))"
        if f[-2] == "Index":
            return f"(index {tokarg(e[2][0], env)})"
    if k == "int":
        return re.match(r"\d+", e[1]).group()
    if k == "neg":
        return f"(-{tokarg(e[1], env)})"
    if k == "str":
        return f"({lit(e[1])})"
    if k == "method" and e[2] in ("to_owned", "into"):
        return tokarg(e[1], env)
    if k == "ref":
        return tokarg(e[1], env)
    if k == "bool":
        return e[1]
    if k == "array":
        return "[" + ", ".join(tokarg(x, env) for x in e[1]) + "]"
    if k == "float":
        return e[1]
    if k == "bytes":
        return "[" + ", ".join(str(ord(c)) for c in e[1][2:-1]) + "]"
    if k == "method" and e[2] == "with_tag":
        return f"({tokarg(e[1], env)[1:-1]} {tokarg(e[3][0], env)})".replace("(index", "(indexTag")
    raise SyntaxError(str(e))


def token(e, env):
    if e[0] == "path":
        return e[1][-1]
    name = e[1][-1]
    if name in ("Tag", "Bool"):
        name = "Tok." + name
    if name in ("F32", "F64"):
        return f"{name} {BITS[e[2][0][1] + name.lower()][1]}"
    return name + "".join(" " + tokarg(a, env) for a in e[2])


def tokens(e, env):
    while e[0] == "ref":
        e = e[1]
    assert e[0] == "array", e
    return [token(x, env) for x in e[1]]


def fill(items, indent, width=118, close="]"):
    """lay out a list"""
    pad = " " * indent
    lines, cur = [], pad + "["
    for k, it in enumerate(items):
        it = it + ("," if k + 1 < len(items) else close)
        if cur.strip() == "[":
            cur += it
        elif len(cur) + 1 + len(it) <= width:
            cur += " " + it
        else:
            lines.append(cur)
            cur = pad + " " + it
    if not items:
        cur += close
    lines.append(cur)
    return "\n".join(lines)


def attr_expr(e):
    k = e[0]
    if k == "str":
        return f".lit (.str ({lit(e[1])}))"
    if k == "int":
        return f".lit (.int {e[1]})"
    if k == "bool":
        return f".lit (.bool {e[1]})"
    if k == "neg":
        return f".neg (.int {e[1][1]})"
    if k == "path":
        return f".path (t! \"{'::'.join(e[1])}\")"
    raise SyntaxError(str(e))


def attribute(items):
    out = []
    for key, val in items:
        v = "none" if val is None else f"some ({attr_expr(val)})"
        out.append(f'(t! "{key}", {v})')
    return "sval [" + ", ".join(out) + "]"


def attributes(attrs):
    return "[" + ", ".join(attribute(a) for a in attrs) + "]"


def fields(f):
    kind, fs = f
    if kind == "unit":
        return ".unit"
    if kind == "named":
        return ".named [" + ", ".join(f'(t! "{n}", {attributes(a)})' for n, a, _ in fs) + "]"
    return ".unnamed [" + ", ".join(attributes(a) for _, a, _ in fs) + "]"


def discr(d):
    if d is None:
        return "none"
    v = ("-" + d[1][1]) if d[0] == "neg" else d[1]
    return f"some ({attr_expr(d)}, {v})"


def item_def(it, name):
    head = f'def {name} : Item\' :=\n  {{ ident := t! "{it["name"]}", attrs := {attributes(it["attrs"])},\n    data := '
    if it["kw"] == "struct":
        return head + f".struct ({fields(it['fields'])}) }}"
    if it["kw"] == "union":
        return head + ".union }"
    vs = [f'{{ ident := t! "{v["name"]}", attrs := {attributes(v["attrs"])}, fields := {fields(v["fields"])}, '
          f'discr := {discr(v["discr"])} }}' for v in it["variants"]]
    return head + ".enum\n" + fill(vs, 6) + " }"


def has_flatten(it):
    fs = [f for v in it.get("variants", [it]) if "fields" in v for f in v["fields"][1]]
    return any(k == "flatten" for _, a, _ in fs for items in a for k, _ in items)


def value(e, env):
    """(kind, Lean term), kind: RV or FV"""
    k = e[0]
    if k == "ref":
        return value(e[1], env)
    if k == "int":
        m = re.fullmatch(r"(\d+)([a-z]\w*)?", e[1])
        t = m.group(2) or "i32"
        return "RV", f"(.int .{t} {m.group(1)})"
    if k == "neg":
        m = re.fullmatch(r"(\d+)([a-z]\w*)?", e[1][1])
        return "RV", f"(.int .{m.group(2) or 'i32'} (-{m.group(1)}))"
    if k == "bool":
        return "RV", f"(.bool {e[1]})"
    if k == "float":
        ty, bits = BITS[e[1]]
        return "RV", f"(.{ty} {bits})"
    if k == "str":
        return "RV", f"(.boxed (.str ({lit(e[1])})))"
    if k == "tuple":
        if not e[1]:
            return "RV", ".unit"
        return "RV", "(.tuple [" + ", ".join(value(x, env)[1] for x in e[1]) + "])"
    if k == "array":
        return "RV", "(.array [" + ", ".join(value(x, env)[1] for x in e[1]) + "])"
    if k == "vec":
        return "RV", "(.boxed (.slice [" + ", ".join(value(x, env)[1] for x in e[1]) + "]))"
    if k == "as":
        v = e[1]
        while v[0] == "ref":
            v = v[1]
        if v[0] == "array":
            c = "array" if ";" in e[2] else "slice"
            return "RV", f"(.{c} [" + ", ".join(value(x, env)[1] for x in v[1]) + "])"
    if k == "call":
        f = e[1]
        if f == ["Some"]:
            return "RV", f"(.some {value(e[2][0], env)[1]})"
        if f[-2:] == ["MapSlice", "new"]:
            arr = e[2][0]
            while arr[0] == "ref":
                arr = arr[1]
            ks = ", ".join(value(t[1][0], env)[1] for t in arr[1])
            vs = ", ".join(value(t[1][1], env)[1] for t in arr[1])
            return "RV", f"(.map [{ks}] [{vs}])"
        if f[-2:] == ["BinarySlice", "new"] or f[-2:] == ["BinaryArray", "new"]:
            c = "bytes" if f[-2] == "BinarySlice" else "byteArray"
            return "RV", f"(.{c} {tokarg(e[2][0], env)})"
        if f[-2:] == ["Vec", "new"]:
            return "RV", "(.boxed (.slice []))"
        if f[-2:] in (["BTreeMap", "new"], ["HashMap", "new"]):
            return "RV", "(.map [] [])"
        if f == ["Ref"]:
            return "RV", f"(.boxed {value(e[2][0], env)[1]})"
    if k == "path" and e[1] == ["None"]:
        return "RV", ".none"
    # derived types
    if k in ("call", "struct", "path"):
        p = e[1]
        if p[0] in env["streams"]:
            return "ST", env["streams"][p[0]]
        it = env["items"].get(p[0])
        if it is None:
            raise KeyError(str(p))
        idx, fs = 0, it.get("fields")
        if it["kw"] == "enum":
            idx = [v["name"] for v in it["variants"]].index(p[1])
            fs = it["variants"][idx]["fields"]
        if k == "call":
            vals = [value(x, env) for x in e[2]]
        elif k == "struct":
            d = dict(e[2])
            vals = [value(d[n], env) for n, _, _ in fs[1]]
        else:
            vals = []
        flat = has_flatten(it) or any(v[0] == "FV" for v in vals)
        fn = "flat" if flat else "rust"
        if flat:
            terms = [v[1] if v[0] == "FV" else f"(.plain {v[1]})" for v in vals]
        else:
            terms = [v[1] for v in vals]
        return ("FV" if flat else "RV"), f"({fn} {env['names']} {env['lean'][p[0]]} {idx} [" + ", ".join(terms) + "])"
    raise SyntaxError(str(e))


# ---------------------------------------------------------------- tests

def body_of(src, start):
    """(body text, line of the body, line of the end) of the block that starts at or after `start`"""
    i = src.index("{", start)
    depth = 0
    j = i
    while True:
        m = LEX.match(src, j)
        g = m.group()
        if m.lastgroup == "op":
            if g == "{":
                depth += 1
            elif g == "}":
                depth -= 1
                if depth == 0:
                    return src[i + 1:j], src.count("\n", 0, i) + 1, src.count("\n", 0, j) + 1
        j = m.end()


def camel(s):
    parts = re.split(r"[_\W]+", s)
    return parts[0] + "".join(p[:1].upper() + p[1:] for p in parts[1:])


def stream_calls(body, env):
    """tokens of `stream.xxx(...)?` calls"""
    out = []
    p = P(lex(body))
    while p.i < len(p.t):
        if p.peek() == "stream" and p.peek(1) == "." and p.peek(3) == "(":
            p.next(); p.next()
            name = p.next()
            args = p.args()
            tok = "".join(w.capitalize() for w in name.split("_"))
            out.append(tok + "".join(" " + tokarg(a, env) for a in args))
        else:
            p.next()
    return out


def tests_in(src):
    """(mod, name, fn line, body, body line, end line)"""
    out = []
    for m in re.finditer(r"#\[test\]\s*(?:#\[[^\n]*\]\s*)*fn (\w+)\(\)", src):
        mods = re.findall(r"^mod (\w+) \{", src[:m.start()], re.M)
        body, line, end = body_of(src, m.end())
        out.append((mods[-1] if mods else "", m.group(1), src.count("\n", 0, m.start()) + 1, body, line, end))
    return out


def translate(path, prefix, emit, assertion, shared_consts=None, outer=None):
    src = open(os.path.join(REPO, path)).read()
    n = 0
    for mod, name, l0, body, line, l1 in tests_in(src):
        if "assert_tokens" not in body and "compat_case" not in body:
            continue
        env = dict(tags={}, labels={}, indexes={}, items={}, lean={}, streams={})
        base = camel(f"{prefix}_{mod}_{name}")
        p = P(lex(body, line - 1))
        defs, examples, pending = [], [], []
        while p.i < len(p.t):
            x = p.peek()
            if x == "#":
                a = p.attr() if p.peek(1) != "!" else (p.next(), p.next(), p.i, None)[3]
                if a is not None:
                    pending.append(a)
                derived = True
                continue
            if x == "const":
                p.next()
                cname = p.next()
                p.need(":")
                ty = p.type()
                p.need("=")
                e = p.expr()
                p.need(";")
                if "Tag" in ty:
                    env["tags"][cname] = e[2][0][1]
                elif "Label" in ty:
                    env["labels"][cname] = e[2][0][1]
                else:
                    env["indexes"][cname] = e[2][0][1]
                continue
            if x in ("struct", "enum"):
                it = p.item(pending)
                pending = []
                ln = f"{base}{it['name']}"
                env["items"][it["name"]] = it
                env["lean"][it["name"]] = ln
                defs.append((it, ln))
                continue
            if x == "impl":
                # impl sval::Value for X
                while p.next() != "for":
                    pass
                ty = p.path()[-1]
                start = p.i
                p.skip_group()
                text_body = " ".join(t[1] for t in p.t[start:p.i])
                if "fn stream <" in text_body:
                    env["streams"][ty] = ty
                    env.setdefault("calls", {})[ty] = text_body
                continue
            if x in ("assert_tokens", "compat_case") or (x == "sval_test" and p.peek(2) == "assert_tokens"):
                p.path()
                args = p.args()
                examples.append(args)
                continue
            p.next()
        env["names"] = f"{base}Names" if (env["tags"] or env["labels"] or env["indexes"]) else "names"
        if env["names"] != "names":
            emit(names_def(env))
        for ty, b in env.get("calls", {}).items():
            env["items"].pop(ty, None)
            try:
                toks = stream_calls(b, env)
            except SyntaxError:
                continue
            if "stream_display" in b or "stream . value" in b or "error" in b:
                env["streams"].pop(ty)
                continue
            ln = f"{base}{ty}"
            env["streams"][ty] = ln
            emit(f"def {ln} : List Token :=\n" + fill(toks, 2))
        for it, ln in defs:
            if it["name"] in env["items"]:
                emit(item_def(it, ln))
        doc = f"/-- `{name}`: `{path}:{l0}-{l1}` -/\n"
        for args in examples:
            try:
                s = assertion(args, env)
            except (KeyError, SyntaxError) as ex:
                sys.stderr.write(f"skipped an assertion of {path} {name}: {ex!r}\n")
                continue
            emit(doc + s)
            n += 1
        if not examples:
            emit(doc.replace("/--", "/-").rstrip())
    return n


def names_def(env):
    def chain(d, f, default):
        out = default
        for k, v in reversed(list(d.items())):
            out = f'if p = t! "{k}" then {f(v)} else {out}'
        return out
    t = chain(env["tags"], lambda v: f"tag ({lit(v)})", "names.tag p")
    l = chain(env["labels"], lambda v: f"label ({lit(v)})", "names.label p")
    i = chain(env["indexes"], lambda v: f"index {v}", "names.index p")
    return (f"def {env['names']} : Names :=\n  {{ isPath := fun _ => true,\n    tag := fun p => {t},\n"
            f"    label := fun p => {l},\n    index := fun p => {i} }}")


def simple(args, env):
    kind, v = value(args[0], env)
    fn = {"RV": "assertTokens", "FV": "assertFlat", "ST": "assertCalls"}[kind]
    v = v[1:-1] if v.startswith("(") else v
    return f"example : {fn} ({v})\n" + fill(tokens(args[1], env), 6) + " = true := by decide +kernel"


def outer(fn):
    def go(args, env):
        e = args[0]
        while e[0] == "ref":
            e = e[1]
        if e[0] == "call":
            parts = [e[2][1]]
            name = "outer"
        else:
            d = dict(e[2])
            if e[1] == ["AllFlattened"]:
                parts = [d["a"], d["b"], d["c"]]
                name = "all"
            else:
                parts = [d["i"]]
                name = "outer"
        vals = []
        for x in parts:
            kind, v = value(x, env)
            v = v[1:-1] if v.startswith("(") else v
            vals.append(f"(streamed ({v}))" if kind == "RV" else f"(calls {v})")
        return (f"example : asserts ({name} {fn} " + " ".join(vals) + ")\n" + fill(tokens(args[1], env), 6)
                + " = true := by decide +kernel")
    return go


def write(path, header, body, footer):
    with open(path, "w") as f:
        f.write(header + "\n\n".join(body) + "\n\n" + footer + "\n")


HEADER = """import Verif.Suite.Tokens

set_option autoImplicit false

/-!
# The tests of {what}, on the model

Written by `suite/gen.py` from {files}.
These are tests of the model, not proofs: each is an assertion of the project, on the model of the code that it tests.
-/

namespace {ns}

open Derive (Names Item')
open Suite
open Suite.Tok

"""


def main():
    out = "/verif/lean/Verif/Suite/"
    # derive
    body = []
    n = translate("derive/test/lib.rs", "", body.append, simple)
    cf = os.path.join(REPO, "derive/test/compile_fail")
    for fn in sorted(os.listdir(cf)):
        if not fn.endswith(".rs"):
            continue
        src = open(os.path.join(cf, fn)).read()
        p = P(lex(src))
        attrs = []
        while p.peek() not in ("pub",):
            if p.peek() == "#":
                a = p.attr()
                if a is not None:
                    attrs.append(a)
            else:
                p.next()
        it = p.item(attrs)
        ln = "fail" + camel("_" + fn[:-3])
        last = src.rstrip().count("\n") + 1
        body.append(item_def(it, ln))
        body.append(f"/-- `compile_fail`: `derive/test/compile_fail/{fn}:1-{last}` -/\n"
                    f"example : (Derive.derive names true {ln}).isNone = true := by decide +kernel")
        n += 1
    write(out + "Derive.lean",
          HEADER.format(what="`sval_derive`", files="`derive/test/lib.rs` and `derive/test/compile_fail/*.rs`",
                        ns="Sval.DeriveSuite"), body, "end Sval.DeriveSuite")
    print("derive", n)
    # flatten
    body, n = [], 0
    for mod in ("record_tuple", "tuple", "map", "seq"):
        n += translate(f"flatten/src/{mod}.rs", mod, body.append, outer("." + camel(mod)))
    write(out + "Flatten.lean",
          HEADER.format(what="`sval_flatten`", files="`flatten/src/{record_tuple,tuple,map,seq}.rs`",
                        ns="Sval.FlattenSuite"), body, "end Sval.FlattenSuite")
    print("flatten", n)
    # sval_test, sval_ref
    body = []
    n = translate("test/src/lib.rs", "", body.append, simple)
    n += translate("ref/src/seq.rs", "", body.append, simple)
    write(out + "Values.lean",
          HEADER.format(what="`sval_test` and `sval_ref`", files="`test/src/lib.rs` and `ref/src/seq.rs`",
                        ns="Sval.ValuesSuite"), body, "end Sval.ValuesSuite")
    print("values", n)


main()
