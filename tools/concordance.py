"""Writes lean/Verif/Lite/Tests*.lean: the cases of /repo/src/interpreter/tests as examples about the model."""
import glob, re
def skip_ws(s, i):
    while i < len(s):
        if s[i].isspace(): i += 1
        elif s.startswith('//', i):
            while i < len(s) and s[i] != '\n': i += 1
        else: break
    return i
def tree(s, i):
    """End of the delimited group that starts at s[i]."""
    pairs = {'(': ')', '{': '}', '[': ']'}
    stack = [pairs[s[i]]]; i += 1
    while stack:
        c = s[i]
        if s.startswith('//', i):
            while s[i] != '\n': i += 1
            continue
        m = re.compile(r'r(#*)"').match(s, i)
        if m and not (s[i-1].isalnum() or s[i-1] == '_'):
            end = s.index('"' + m.group(1), m.end()); i = end + 1 + len(m.group(1)); continue
        if c == '"':
            i += 1
            while s[i] != '"':
                i += 2 if s[i] == '\\' else 1
            i += 1; continue
        if c in pairs: stack.append(pairs[c])
        elif c in ')}]':
            assert c == stack.pop(), s[i-40:i+5]
        i += 1
    return i
def cases(path):
    s = open(path).read()
    i = s.index('make_interpreter_test!(') + len('make_interpreter_test!(')
    i = skip_ws(s, i)
    m = re.compile(r'(\w+)\s*,').match(s, i); name = m.group(1); i = m.end()
    out = []
    while True:
        i = skip_ws(s, i)
        if s[i] == ')': break
        assert s[i] == '(', s[i:i+30]
        end = tree(s, i)
        line = s.count('\n', 0, i) + 1
        j = skip_ws(s, i + 1)
        m = re.compile(r'(\w+)\s*,').match(s, j); case = m.group(1); j = m.end()
        parts = []
        for _ in range(3):
            j = skip_ws(s, j); e = tree(s, j); parts.append(s[j+1:e-1]); j = skip_ws(s, e); assert s[j] == ','; j += 1
        err = s[skip_ws(s, j):end-1].strip().rstrip(',').strip()
        out.append((case, line, parts, None if err == 'None' else re.match(r'Some\(ErrorType::(\w+)Error\)', err).group(1)))
        i = skip_ws(s, end)
        if s[i] == ',': i += 1
    return name, out
def clean(t):
    t = '\n'.join(re.sub(r'^\s*//.*$', '', l) for l in t.split('\n'))
    return ' '.join(t.split())
def lit(t): return 'c! "' + clean(t).replace('\\', '\\\\').replace('"', '\\"') + '"'
ERR = {'Type': '.type', 'Eval': '.eval', 'RedefinedName': '.redefinedName', 'Signature': '.signature', 'Substitution': '.substitution'}
def main():
    for out, pat, what in [('Tests', '/repo/src/interpreter/tests/*.rs', 'the interpreter'), ('TestsFuncs', '/repo/src/interpreter/tests/funcs/*.rs', 'the built-in functions')]:
        L = ['import Verif.Lite.Rust', '/-! # The repository\'s tests of %s, as examples about the model (generated by `tools/concordance.py`) -/' % what,
             '', 'namespace Verif.Lite', 'open Verif', '']
        n = 0
        for f in sorted(glob.glob(pat)):
            if f.endswith('mod.rs'): continue
            name, cs = cases(f)
            L.append('/-! ## `%s` -/' % f.replace('/repo/', '')); L.append('')
            for case, line, (spec, block, exp), err in cs:
                n += 1
                L.append('/-- `%s` (line %d) -/' % (case, line))
                if err: L.append('example : Fails %s %s %s := by decide +kernel' % (lit(spec), lit(block), ERR[err]))
                else: L.append('example : Gives %s %s %s := by decide +kernel' % (lit(spec), lit(block), lit(exp)))
            L.append('')
        L.append('end Verif.Lite')
        open('/verif/lean/Verif/Lite/%s.lean' % out, 'w').write('\n'.join(L) + '\n')
        print(out, n)

# ---- unit tests ----
def unquote(s):
    out, i = '', 0
    while i < len(s):
        if s[i] == '\\': out += {'n': '\n', 't': '\t'}.get(s[i+1], s[i+1]); i += 2
        else: out += s[i]; i += 1
    return out
STR = r'"((?:[^"\\]|\\.)*)"'
def lstr(t): return 'c! "' + t.replace('\\', '\\\\').replace('"', '\\"') + '"'
TY = {'Ident': '.ident', 'Path': '.path', 'Type': '.type', 'Expr': '.expr', 'LitInt': '.litInt', 'LitStr': '.litStr', 'Tokens': '.tokens'}
def header(what, imp='Verif.Lite.Units'):
    return ['import ' + imp, '/-! # The repository\'s tests of %s, as examples about the model (generated by `tools/concordance.py`) -/' % what,
            '', 'namespace Verif.Lite', 'open Verif', '']
def write(name, L, n):
    L.append('end Verif.Lite')
    open('/verif/lean/Verif/Lite/%s.lean' % name, 'w').write('\n'.join(L) + '\n'); print(name, n)
def values():
    f = '/repo/src/parse/value.rs'; s = open(f).read(); t = s.index('#[cfg(test)]')
    L = header('the parser of values'); n = 0
    for m in re.compile(r'#\[case::(\w+)\(\s*%s,\s*%s,\s*Type::(\w+),\s*%s\s*\)\]' % (STR, STR, STR)).finditer(s, t):
        case, a, b, ty, c = m.groups(); n += 1
        L.append('/-- `%s` (`src/parse/value.rs`, line %d) -/' % (case, s.count('\n', 0, m.start()) + 1))
        L.append('example : Parsed %s %s %s %s := by decide +kernel' % (lstr(unquote(a)), lstr(unquote(b)), TY[ty], lstr(unquote(c))))
    assert n == s.count('#[case::'), n
    write('TestsValues', L, n)
def value_of(v):
    m = re.match(r'Value::from_ident\(Ident::new\("(\w+)",', v)
    if m: return '.ident (%s)' % lstr(m.group(1))
    m = re.match(r'Value::from_type\(syn::parse_str::<syn::Type>\(%s\)' % STR, v)
    return '.type (toks (%s))' % lstr(m.group(1))
def substs():
    L = header('substitution'); n = 0
    for f, rel in [('/repo/src/substitution/alias_substitution_visitor.rs', 'Visits'), ('/repo/src/substitution/substitute_idents.rs', 'Substitutes')]:
        s = open(f).read(); t = s.index('#[cfg(test)]')
        L += ['/-! ## `%s` -/' % f.replace('/repo/', ''), '']; k = 0
        for m in re.compile(r'#\[case::(\w+)\(\s*').finditer(s, t):
            i = m.end(); parts = []
            for _ in range(2):
                i = skip_ws(s, i); assert s.startswith('parse_quote!', i); i += len('parse_quote!')
                e = tree(s, i); inner = s[i+1:e-1].strip(); parts.append(inner[1:-1]); i = skip_ws(s, e); assert s[i] == ','; i += 1
            i = skip_ws(s, i); e = tree(s, s.index('(', i)); subs = s[i:e]
            ps = re.findall(r'"(\w+)" => (Value::.*)', subs)
            sl = '[' + ', '.join('(%s, %s)' % (lstr(a), value_of(v)) for a, v in ps) + ']'
            L.append('/-- `%s` (line %d) -/' % (m.group(1), s.count('\n', 0, m.start()) + 1)); k += 1
            L.append('example : %s %s %s %s := by decide +kernel' % (rel, sl, lit(parts[0]), lit(parts[1])))
        n += k; L.append('')
    write('TestsSubst', L, n)
def funcs():
    f = '/repo/src/funcs.rs'; s = open(f).read(); t = s.index('#[cfg(test)]')
    L = header('`normalize` and `concat` on strings'); n = 0
    for m in re.compile(r'#\[case\(%s, %s\)\]' % (STR, STR)).finditer(s, t):
        n += 1; L.append('example : normalize CharClass.ascii (%s) = %s := by decide +kernel' % (lstr(unquote(m.group(1))), lstr(unquote(m.group(2)))))
    for m in re.compile(r'#\[case\(&\[(.*?)\], %s\)\]' % STR).finditer(s, t):
        n += 1; L.append('example : List.flatten ([%s] : List Str) = %s := by decide' % (', '.join(lstr(x) for x in re.findall(STR, m.group(1))), lstr(m.group(2))))
    write('TestsStrings', L, n)
main(); values(); substs(); funcs()
