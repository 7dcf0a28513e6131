#!/usr/bin/env python3
"""Rewrite the generated sections of DESIGN.md: which definitions model which Go function, and the axioms of every theorem of MANIFEST.json.
The modules must be built. A citation `xcache.go:10-20` in the comment of a definition counts as modelling the functions it overlaps;
modules under Verif/Model/V1 cite the files of the root package, all others those of v2."""
import json, re, glob, os, subprocess, collections
root = '/verif/lean'

def functions(pattern):
    res = []
    for f in sorted(glob.glob(pattern)):
        if f.endswith('_test.go'): continue
        L = open(f).read().split('\n')
        i = 0
        while i < len(L):
            m = re.match(r'func (?:\((\w+) \*?(\w+)\) )?(\w+)\(', L[i])
            if m:
                j = i
                while not L[j].startswith('}') and not (j == i and L[i].rstrip().endswith('}')): j += 1
                res.append((os.path.basename(f), i + 1, j + 1, (m.group(2) + '.' if m.group(2) else '') + m.group(3)))
                i = j
            i += 1
    return res

def citations(files):
    cites = collections.defaultdict(list)
    for f in files:
        s = open(f).read()
        for m in re.finditer(r'/--(.*?)-/\s*(?:@\[[^\]]*\]\s*)?(?:def|inductive|structure|abbrev) (\S+)', s, re.S):
            txt = re.sub(r'\s+', ' ', m.group(1))
            for c in re.finditer(r'(x\w+\.go):([0-9,\- ]+)', txt):
                for r in c.group(2).split(','):
                    r = r.strip()
                    if re.match(r'^\d+(-\d+)?$', r):
                        a, _, b = r.partition('-')
                        cites[c.group(1)].append((int(a), int(b or a), ('V1.' if '/V1/' in f else '') + os.path.basename(f)[:-5] + '.' + m.group(2)))
    return cites

def table(prefix, pattern, files):
    cites, out = citations(files), []
    for fn, a, b, n in functions(pattern):
        ds = sorted({d for (x, y, d) in cites[fn] if not (y < a or x > b)})
        out.append(f'| `{prefix}{fn}:{a}-{b}` | {n} | {", ".join("`"+d+"`" for d in ds) or "not modelled"} |')
    return out

def axioms():
    m = json.load(open('/verif/MANIFEST.json'))
    ths = [t for c in m['claims'] for t in c['theorems']]
    f = '/tmp/design_axioms.lean'
    open(f, 'w').write('import Verif\n' + ''.join(f'#print axioms {t}\n' for t in ths))
    o = subprocess.run(['lake', 'env', 'lean', f], capture_output=True, text=True, cwd=root).stdout
    o = re.sub(r'\n\s+', ' ', o)
    g = collections.OrderedDict()
    for l in o.splitlines():
        a = re.match(r"'(.*)' depends on axioms: \[(.*)\]", l)
        b = re.match(r"'(.*)' does not depend on any axioms", l)
        if a: g.setdefault(', '.join(sorted(a.group(2).split(', '))), []).append(a.group(1))
        elif b: g.setdefault('no axioms', []).append(b.group(1))
        else: raise SystemExit('unexpected output: ' + l)
    out = []
    for k in sorted(g):
        out.append(f'**{k}** ({len(g[k])} theorems): ' + ', '.join('`' + t.replace('Xcore.', '') + '`' for t in g[k]) + '.')
        out.append('')
    return out

def replace(s, tag, lines):
    b, e = f'<!-- {tag} begin -->', f'<!-- {tag} end -->'
    i, j = s.index(b) + len(b), s.index(e)
    return s[:i] + '\n' + '\n'.join(lines) + '\n' + s[j:]

s = open('/verif/DESIGN.md').read()
v2 = sorted(glob.glob(root + '/Verif/Model/*.lean'))
v1 = sorted(glob.glob(root + '/Verif/Model/V1/*.lean'))
head = ['| Go | function | definitions |', '|----|----------|-------------|']
s = replace(s, 'coverage', head + table('v2/', '/repo/v2/x*.go', v2) + table('', '/repo/x*.go', v1))
s = replace(s, 'axioms', axioms())
open('/verif/DESIGN.md', 'w').write(s)
