#!/usr/bin/env python3
"""Mutation testing of the theorems, outside /verif.

usage: mutate.py mutations.json [out.jsonl]

mutations.json: list of {file, old, new, definition, edit, claim, props: [Props files]}.
For each mutation the edited module and those of the modules needed by the given Props files that depend on it are concatenated (in
import order) into one scratch file with the edit applied; the others are imported as built. ROOT is the Lake project (a built copy
of /verif/lean, so that work can go on in /verif). Lean continues after an error, and a theorem whose proof fails is replaced by an axiom `sorryAx`; the property theorems
that depend on it are therefore those that do not survive the edit.

Before the edits, the unedited modules of each distinct list of Props files and edited module are run the same way: every property theorem must survive,
otherwise the run stops. (Concatenating modules can itself break a proof, which would be counted as a caught edit.)
"""
import json, re, sys, os, subprocess, concurrent.futures
root = os.environ.get('ROOT', '/verif/lean')
def path(m): return os.path.join(root, m.replace('.', '/') + '.lean')
def closure(mods):
    seen, order = set(), []
    def go(m):
        if m in seen or not m.startswith('Verif.'): return
        seen.add(m)
        for l in open(path(m)):
            r = re.match(r'import (\S+)', l)
            if r: go(r.group(1))
        order.append(m)
    for m in mods: go(m)
    return order
def run(idx, mu):
    mods = closure(mu['props'])
    assert mu['file'] in mods, 'mutated file not in closure'
    kept = [m for m in mods if mu['file'] not in closure([m])]
    mods = [m for m in mods if m not in kept]
    ext, body, names = list(kept), [], []
    for m in mods:
        src = open(path(m)).read()
        if m == mu['file'] and 'old' in mu:
            n = src.count(mu['old'])
            if n == 0: return {**mu, 'error': 'old text not found'}
            if n > 1 and not mu.get('first'): return {**mu, 'error': 'old text ambiguous'}
            src = src.replace(mu['old'], mu['new'], 1)
        lines = src.split('\n')
        for l in lines:
            r = re.match(r'import (\S+)', l)
            if r and not r.group(1).startswith('Verif.') and r.group(1) not in ext: ext.append(r.group(1))
        ns = []
        for l in lines:
            r = re.match(r'namespace (\S+)', l)
            if r: ns.append(r.group(1))
            r = re.match(r'end (\S+)', l)
            if r and ns and ns[-1] == r.group(1): ns.pop()
            r = re.match(r'theorem (C\d\d\d?_\w+)', l)
            if r and m.startswith('Verif.Props'): names.append('.'.join(ns + [r.group(1)]))
        body.append('section\n' + '\n'.join(l for l in lines if not l.startswith('import ')) + '\nend\n')
    text = '\n'.join('import ' + e for e in ext) + '\n' + '\n'.join(body) + '\n' + '\n'.join('#print axioms ' + n for n in names) + '\n'
    f = f'/tmp/mut/m{idx}.lean'
    open(f, 'w').write(text)
    tl = text.split('\n')
    try:
        p = subprocess.run(['lake', 'env', 'lean', '-M', '6000', f], cwd=root, capture_output=True, text=True, timeout=3000)
        out = p.stdout + p.stderr
    except subprocess.TimeoutExpired:
        return {**mu, 'error': 'timeout'}
    broken = set()
    helper = set()
    for r in re.finditer(r"m\w+\.lean:(\d+):\d+: error", out):
        ln = int(r.group(1)) - 1
        while ln >= 0 and not re.match(r'(@\[.*\] )?(private )?(theorem|def|example|instance|inductive|structure|#print)', tl[ln]): ln -= 1
        helper.add(tl[ln].split(' (')[0].split(' :')[0].replace('theorem ', '').strip()[:70])
    for r in re.finditer(r"'([^']+)' depends on axioms: \[([^\]]*)\]", out):
        if 'sorryAx' in r.group(2): broken.add(r.group(1))
    edited = open(path(mu['file'])).read()
    bad = sorted(x for x in helper if re.match(r'(def|inductive|structure|instance)', x) and x in edited)   # definitions of proof modules may fail
    if bad: return {**mu, 'error': 'edit does not compile: ' + ', '.join(bad)}
    allp = set(names)
    printed = set(r.group(1) for r in re.finditer(r"'([^']+)' (?:depends on|does not depend)", out))
    broken |= allp - printed
    return {**mu, 'failed': sorted(broken), 'errors_in': sorted(helper)[:12], 'surviving': sorted(allp - broken)}
if __name__ == '__main__':
    mus = json.load(open(sys.argv[1]))
    outf = open(sys.argv[2], 'a') if len(sys.argv) > 2 else None
    for i, (f, ps) in enumerate(sorted(set((m['file'], tuple(m['props'])) for m in mus))):
        r = run(f'_base{i}', {'file': f, 'props': list(ps)})
        if 'error' in r or r['failed'] or r['errors_in']:
            sys.exit(f'baseline fails without any edit: {ps}: {r.get("error")} {r.get("failed")} {r.get("errors_in")}')
        print('baseline ok:', ' '.join(ps), len(r['surviving']), 'theorems')
    with concurrent.futures.ThreadPoolExecutor(int(os.environ.get('J', '2'))) as ex:
        for r in ex.map(lambda t: run(*t), enumerate(mus)):
            print(('!!' if 'error' in r else '--' if not r['failed'] else 'ok'), r['definition'], '|', r['edit'], '|', r['claim'])
            if 'error' in r: print('   ', r['error'])
            else:
                print('    failed:', ' '.join(sorted(set(x.split('.')[-1].split('_')[0] for x in r['failed']))), '| surviving:', ' '.join(x.split('.')[-1] for x in r['surviving'])[:600])
                print('    errors in:', r['errors_in'])
            sys.stdout.flush()
            if outf: outf.write(json.dumps(r) + '\n'); outf.flush()
