#!/usr/bin/env python3
"""Append the results of scripts/mutate.py to seeded/LOG.jsonl. usage: log.py out.jsonl [definition=tightened theorem ...]"""
import json, sys
tight = dict(a.split('=', 1) for a in sys.argv[2:])
with open('/verif/seeded/LOG.jsonl', 'a') as f:
    for l in open(sys.argv[1]):
        r = json.loads(l)
        if 'error' in r: continue
        f.write(json.dumps({'definition': r['file'] + ': ' + r['definition'], 'edit': r['edit'] + ' [' + r['old'].strip()[:120] + ' => ' + r['new'].strip()[:120] + ']',
            'claim': r['claim'], 'failed': [x.split('.')[-1] for x in r['failed']], 'tightened': tight.get(r['definition'], '').split(',') if r['definition'] in tight else []}, ensure_ascii=False) + '\n')
